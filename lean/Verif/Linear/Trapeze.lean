import Verif.Block.Matrix
import Mathlib.Algebra.Order.Field.Basic
import Mathlib.Algebra.Order.Ring.Rat
import Mathlib.Data.Rat.Floor
import Mathlib.Tactic.Ring
import Mathlib.Tactic.NormNum

/-
Model of the operator that integrates with the trapezoidal rule: src/pyoperators/linear.py:734-784 (`IntegrationTrapezeOperator`).
-/

namespace Verif.Linear.Trapeze

open Verif.Shape Verif.Block

variable {K : Type} [Field K]

/-- The weights: src/pyoperators/linear.py:779-782.  The array of the weights has the type of the abscissa (`np.empty_like(x)`), so that
the values are converted on assignment: `cast` is the identity for floating-point abscissa and the truncation for integers. -/
def weights (cast : K → K) (x : List K) : List K :=
  let n := x.length
  (List.range n).map fun i =>
    if i = n - 1 then cast (1 / 2 * (x.getD (n - 1) 0 - x.getD (n - 2) 0))
    else if i = 0 then cast (1 / 2 * (x.getD 1 0 - x.getD 0 0))
    else cast (1 / 2 * (x.getD (i + 1) 0 - x.getD (i - 1) 0))

/-- `np.diff(x)`. -/
def diff (x : List K) : List K := List.zipWith (fun a b => b - a) x x.tail

/-- The constructor: src/pyoperators/linear.py:772-784.  `none` is a ValueError.  The homotheties of weights zero and one are converted
into the null operator and the identity, which have the same effect; `update` says which operands are able to update their
output. -/
def operands [LinearOrder K] (cast : K → K) (update : K → Bool) (x : List K) : Option (List (Operand K)) :=
  if x.length < 2 then none
  else if (diff x).any (fun d => decide (d < 0)) && (diff x).any (fun d => decide (0 < d)) then none
  else some ((weights cast x).map fun w => { fn := fun _ y k => w * y k, update := update w })

/-- The block row operator of the weights: src/pyoperators/linear.py:784. -/
def integration [LinearOrder K] (cast : K → K) (update : K → Bool) (x : List K) (axis : Int) : Option (BlockOp K) :=
  (operands cast update x).map fun ops =>
    { operands := ops, partitionin := List.replicate ops.length 1, partitionout := [], axisin := some (.newAxis axis), axisout := none }

/-- The trapezoidal rule: the sum over the bins of their width times the average of the values at their ends. -/
def rule (x : List K) (f : Nat → K) : K :=
  ∑ i ∈ Finset.range (x.length - 1), (x.getD (i + 1) 0 - x.getD i 0) * ((f i + f (i + 1)) / 2)

theorem weighted [CharZero K] (x : Nat → K) (f : Nat → K) (m : Nat) :
    1 / 2 * (x 1 - x 0) * f 0 + ∑ i ∈ Finset.range m, 1 / 2 * (x (i + 2) - x i) * f (i + 1) +
      1 / 2 * (x (m + 1) - x m) * f (m + 1) =
      ∑ i ∈ Finset.range (m + 1), (x (i + 1) - x i) * ((f i + f (i + 1)) / 2) := by
  induction m with
  | zero => simp; ring
  | succ m ih =>
    rw [Finset.sum_range_succ _ (m + 1), ← ih, Finset.sum_range_succ]
    ring

theorem sum_weights [CharZero K] (x : List K) (h : 2 ≤ x.length) (f : Nat → K) :
    ∑ i ∈ Finset.range x.length, (weights id x).getD i 0 * f i = rule x f := by
  obtain ⟨m, hm⟩ : ∃ m, x.length = m + 2 := ⟨x.length - 2, by omega⟩
  have hw : ∀ i < m + 2, (weights id x).getD i 0 =
      if i = m + 1 then 1 / 2 * (x.getD (m + 1) 0 - x.getD m 0)
      else if i = 0 then 1 / 2 * (x.getD 1 0 - x.getD 0 0)
      else 1 / 2 * (x.getD (i + 1) 0 - x.getD (i - 1) 0) := by
    intro i hi
    rw [weights, List.getD_eq_getElem?_getD, List.getElem?_map, List.getElem?_range (by omega)]
    simp [hm]
  rw [rule, hm, show m + 2 - 1 = m + 1 from rfl, ← weighted (fun i => x.getD i 0) f m, Finset.sum_range_succ, Finset.sum_range_succ',
    hw (m + 1) (by omega), if_pos rfl, hw 0 (by omega), if_neg (by omega), if_pos rfl, add_comm (∑ i ∈ Finset.range m, _)]
  congr 2
  apply Finset.sum_congr rfl
  intro i hi
  rw [Finset.mem_range] at hi
  rw [hw (i + 1) (by omega), if_neg (by omega), if_neg (by omega)]
  rfl

/-- The operator returns the weighted sum of the samples. -/
theorem row_value [LinearOrder K] {cast : K → K} {update : K → Bool} {x : List K} {axis : Int} {b : BlockOp K}
    (hb : integration cast update x axis = some b) (s1 s2 : Shape) (ha : pyIndex (s1 ++ x.length :: s2).length axis = s1.length)
    (hl : -((s1 ++ x.length :: s2).length : Int) ≤ axis) (input output tmp : Nat) (hxy : input ≠ output) (htx : tmp ≠ input)
    (hty : tmp ≠ output) (oks : List Bool) (ho : oks.length = x.length) (m : Mem K) :
    ∃ m', b.direct (· + ·) (s1 ++ x.length :: s2) (s1 ++ s2) input output tmp oks m = some m' ∧
      (∀ k1 k2, inShape s1 k1 = true → inShape s2 k2 = true →
        m' output (k1 ++ k2) = ∑ i ∈ Finset.range x.length, (weights cast x).getD i 0 * m input (k1 ++ i :: k2)) ∧
      ∀ k, inShape (s1 ++ x.length :: s2) k = true → m' input k = m input k := by
  simp only [integration, operands] at hb
  have h2 : 2 ≤ x.length := by
    by_contra hc
    rw [if_pos (by omega)] at hb
    simp at hb
  rw [if_neg (by omega)] at hb
  split at hb
  · simp at hb
  simp only [Option.map_some, Option.some.injEq] at hb
  subst hb
  have hwl : (weights cast x).length = x.length := by simp [weights]
  set sx := s1 ++ x.length :: s2 with hsx
  set ops : List (Operand K) := (weights cast x).map fun w => { fn := fun _ y k => w * y k, update := update w } with hops
  have hol : ops.length = x.length := by simp [hops, hwl]
  have hfit : Fits (List.replicate ops.length 1) (.newAxis axis) sx := by
    refine ⟨hl, ?_, ?_, ?_⟩
    · simp only [Axis.pos]
      by_contra hc
      have : pyIndex sx.length axis = axis.toNat := by rw [pyIndex, if_pos (by omega)]
      have hlen : sx.length = s1.length + (s2.length + 1) := by simp [hsx]
      omega
    · simp only [Axis.pos, ha]
      simp [hsx, hol]
    · intro a _ p hp
      exact (List.mem_replicate.1 hp).2
  have hparts := C22_parts _ _ _ hfit
  have hlen : ops.length = (getSlices (List.replicate ops.length 1) (.newAxis axis)).length := by
    rw [hparts.1]; simp
  have hne : ops ≠ [] := by
    intro h; rw [h] at hol; simp at hol; omega
  obtain ⟨m', r, rs, e1, e2, e3, e4⟩ := rowDirect_value (· + ·) sx input output tmp hxy htx hty ops
    (getSlices (List.replicate ops.length 1) (.newAxis axis)) oks hne hlen (by rw [hol, ho])
    (C22_tiles _ _ _ hfit).each m
  refine ⟨m', e2, ?_, e4⟩
  intro k1 k2 hk1 hk2
  have hrl : (r :: rs).length = x.length := by
    rw [← e1, results, List.length_zipWith, ← hlen, hol, min_self]
  rw [e3, foldl_add, ← List.sum_cons, ← List.map_cons (f := fun r : Arr K => r (k1 ++ k2)),
    sum_range_get _ _ hrl.symm]
  apply Finset.sum_congr rfl
  intro i hi
  rw [Finset.mem_range] at hi
  have hop : ops[i]? = some { fn := fun _ y k => (weights cast x).getD i 0 * y k, update := update ((weights cast x).getD i 0) } := by
    rw [hops, List.getElem?_map, List.getElem?_eq_getElem (by omega)]
    simp [List.getD_eq_getElem?_getD, List.getElem?_eq_getElem (show i < (weights cast x).length by omega)]
  rw [← e1, results_get sx (m input) ops _ i _ hop hlen]
  simp only [Option.map_some, Option.getD_some]
  congr 1
  obtain ⟨n, hn1, hn2⟩ := slice_along hfit (getD_getSlices hfit (show i < (List.replicate ops.length 1).length by simp; omega))
  have hpl : sx.length - s1.length - 1 = s2.length := by simp [hsx]
  rw [Axis.pos, ha, hpl, Axis.item] at hn2
  have hsum : ((List.replicate ops.length 1).take i).sum = i := by
    rw [List.take_replicate]; simp; omega
  rw [hsum] at hn2
  rw [view, hn2, clip, hsx, along_at_shape, if_pos]
  · rw [along_at_place _ _ _ _ _ (inShape_length hk1)]
  · rw [inShape_append (inShape_length hk1), hk1, hk2]; rfl

/-- **C43.** The operator applied to the samples of a function, stored along a new axis at any place, returns the trapezoidal rule for
each element along the other dimensions, and it does not change the samples. -/
theorem C43_integral [LinearOrder K] [CharZero K] {update : K → Bool} {x : List K} {axis : Int} {b : BlockOp K}
    (hb : integration id update x axis = some b) (s1 s2 : Shape) (ha : pyIndex (s1 ++ x.length :: s2).length axis = s1.length)
    (hl : -((s1 ++ x.length :: s2).length : Int) ≤ axis) (input output tmp : Nat) (hxy : input ≠ output) (htx : tmp ≠ input)
    (hty : tmp ≠ output) (oks : List Bool) (ho : oks.length = x.length) (m : Mem K) :
    ∃ m', b.direct (· + ·) (s1 ++ x.length :: s2) (s1 ++ s2) input output tmp oks m = some m' ∧
      (∀ k1 k2, inShape s1 k1 = true → inShape s2 k2 = true →
        m' output (k1 ++ k2) = rule x fun i => m input (k1 ++ i :: k2)) ∧
      ∀ k, inShape (s1 ++ x.length :: s2) k = true → m' input k = m input k := by
  have h2 : 2 ≤ x.length := by
    by_contra hc
    simp only [integration, operands] at hb
    rw [if_pos (by omega)] at hb
    simp at hb
  obtain ⟨m', e1, e2, e3⟩ := row_value hb s1 s2 ha hl input output tmp hxy htx hty oks ho m
  exact ⟨m', e1, fun k1 k2 h3 h4 => by rw [e2 k1 k2 h3 h4, sum_weights x h2 fun i => m input (k1 ++ i :: k2)], e3⟩

/-- **C43.** The constructor accepts the lists of at least two abscissa that are sorted in increasing or in decreasing order, possibly
with repetitions, and only them. -/
theorem C43_accepts [LinearOrder K] [IsStrictOrderedRing K] (update : K → Bool) (x : List K) (axis : Int) :
    (integration id update x axis).isSome = true ↔ 2 ≤ x.length ∧ (x.IsChain (· ≤ ·) ∨ x.IsChain (· ≥ ·)) := by
  have hchain : ∀ x : List K, ((diff x).any (fun d => decide (d < 0)) = false ↔ x.IsChain (· ≤ ·)) ∧
      ((diff x).any (fun d => decide (0 < d)) = false ↔ x.IsChain (· ≥ ·)) := by
    intro x
    induction x with
    | nil => simp [diff]
    | cons a x ih =>
      cases x with
      | nil => simp [diff]
      | cons c x =>
        have hd : diff (a :: c :: x) = (c - a) :: diff (c :: x) := rfl
        rw [hd, List.any_cons, List.any_cons, Bool.or_eq_false_iff, Bool.or_eq_false_iff, ih.1, ih.2, List.isChain_cons_cons,
          List.isChain_cons_cons]
        simp
  simp only [integration, operands, Option.isSome_map]
  by_cases h : x.length < 2
  · rw [if_pos h]; simp; omega
  · rw [if_neg h]
    rw [← (hchain x).1, ← (hchain x).2]
    cases h1 : (diff x).any (fun d => decide (d < 0)) <;> cases h2 : (diff x).any (fun d => decide (0 < d)) <;> simp <;> omega

/-- The hypotheses of the theorems are met: the abscissa of the documentation, integrated along the second axis of an array of shape
(2, 4). -/
example : (integration id (fun _ => true) [(1 / 2 : ℚ), 1, 2, 4] (-1)).isSome = true ∧
    pyIndex ([2] ++ [(1 / 2 : ℚ), 1, 2, 4].length :: []).length (-1) = [2].length ∧
    rule [(1 / 2 : ℚ), 1, 2, 4] (fun i => [(1 / 2 : ℚ), 1, 2, 4].getD i 0) = 63 / 8 := by
  refine ⟨?_, rfl, ?_⟩
  · rw [C43_accepts]
    norm_num
  · simp [rule, Finset.sum_range_succ]; norm_num

/-- The conversion of a number to an integer by NumPy: truncation. -/
def truncate (a : ℚ) : ℚ := if 0 ≤ a then ⌊a⌋ else ⌈a⌉

/-- **C43 does not hold** for integer abscissa: the weights are truncated, so that the operator returns 2 for the integral over [0, 3]
of the constant 1 sampled at 0, 1 and 3. -/
theorem C43_integers_fails : ∃ (b : BlockOp ℚ) (m m' : Mem ℚ), integration truncate (fun _ => true) [0, 1, 3] 0 = some b ∧
    (∀ k, m 0 k = 1) ∧ b.direct (· + ·) [3] [] 0 1 2 [true, true, true] m = some m' ∧ m' 1 [] = 2 ∧
    rule [(0 : ℚ), 1, 3] (fun _ => 1) = 3 := by
  have h : weights truncate [(0 : ℚ), 1, 3] = [0, 1, 1] := by
    have h1 : truncate (1 / 2 * (1 - 0)) = 0 := by rw [truncate, if_pos (by norm_num)]; norm_num
    have h2 : truncate (1 / 2 * (3 - 0)) = 1 := by rw [truncate, if_pos (by norm_num)]; norm_num [Int.floor_eq_iff]
    have h3 : truncate (1 / 2 * (3 - 1)) = 1 := by rw [truncate, if_pos (by norm_num)]; norm_num
    change [truncate (1 / 2 * (1 - 0)), truncate (1 / 2 * (3 - 0)), truncate (1 / 2 * (3 - 1))] = _
    rw [h1, h2, h3]
  have hs : (integration truncate (fun _ => true) [(0 : ℚ), 1, 3] 0).isSome = true := by
    norm_num [integration, operands, diff]
  obtain ⟨b, hb⟩ := Option.isSome_iff_exists.1 hs
  obtain ⟨m', e1, e2, -⟩ := row_value hb [] [] rfl (by simp) 0 1 2 (by decide) (by decide) (by decide) [true, true, true] rfl
    (fun _ _ => 1)
  refine ⟨b, fun _ _ => 1, m', hb, fun _ => rfl, e1, ?_, by norm_num [rule, Finset.sum_range_succ]⟩
  have := e2 [] [] rfl rfl
  rw [h] at this
  norm_num [Finset.sum_range_succ] at this
  exact this

end Verif.Linear.Trapeze
