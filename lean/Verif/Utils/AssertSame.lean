import Mathlib.Algebra.Order.Ring.Rat
import Mathlib.Algebra.Order.AbsoluteValue.Basic
import Mathlib.Data.List.Forall2
import Mathlib.Tactic.Linarith
import Mathlib.Tactic.NormNum
import Mathlib.Tactic.Ring
import Mathlib.Tactic.Positivity

/-
C108: model of `assert_same` (src/pyoperators/utils/testing.py:27-107), the comparison of arrays that the users of the
package import to test their operators.

Simplifications: the finite numbers are rational and the arithmetic on them is exact; the imaginary parts are zero (a
complex array only differs by its type); the text of the error is not represented.
-/

namespace Verif.AssertSame

/-! ### Numbers -/

/-- The values of a floating point number. -/
inductive Val where
  | fin (q : ℚ)
  | inf
  | ninf
  | nan
deriving DecidableEq

/-- `abs(x)`. -/
def Val.abs : Val → Val
  | .fin q => .fin |q|
  | .inf => .inf
  | .ninf => .inf
  | .nan => .nan

/-- `x - y` (IEEE 754). -/
def Val.sub : Val → Val → Val
  | .nan, _ => .nan
  | _, .nan => .nan
  | .fin p, .fin q => .fin (p - q)
  | .fin _, .inf => .ninf
  | .fin _, .ninf => .inf
  | .inf, .inf => .nan
  | .inf, _ => .inf
  | .ninf, .ninf => .nan
  | .ninf, _ => .ninf

/-- `e * x` for a finite number e (IEEE 754). -/
def Val.scale (e : ℚ) : Val → Val
  | .fin q => .fin (e * q)
  | .inf => if 0 < e then .inf else if e < 0 then .ninf else .nan
  | .ninf => if 0 < e then .ninf else if e < 0 then .inf else .nan
  | .nan => .nan

/-- `x + e` for a finite number e (IEEE 754). -/
def Val.shift (e : ℚ) : Val → Val
  | .fin q => .fin (q + e)
  | v => v

/-- `x <= y`, false if one of them is not a number (IEEE 754). -/
def Val.le : Val → Val → Bool
  | .nan, _ => false
  | _, .nan => false
  | .ninf, _ => true
  | _, .inf => true
  | .fin p, .fin q => decide (p ≤ q)
  | _, _ => false

/-- `np.minimum(x, y)`: not a number if one of them is not. -/
def Val.min (x y : Val) : Val :=
  match x, y with
  | .nan, _ => .nan
  | _, .nan => .nan
  | x, y => if x.le y then x else y

/-- `x == y`, false for NaN. -/
def Val.eq : Val → Val → Bool
  | .nan, _ => false
  | x, y => decide (x = y)

/-- `np.isnan(x)`. -/
def Val.isnan : Val → Bool
  | .nan => true
  | _ => false

/-! ### Types and arrays -/

/-- The numerical types: booleans and integers, floating point numbers of 2, 4, 8 or 16 bytes, and complex numbers whose
parts have 4, 8 or 16 bytes (given by the size of their parts); `other` is any other type. -/
inductive DType where
  | integer
  | float (size : Nat)
  | complex (size : Nat)
  | other
deriving DecidableEq

/-- `a < b` for data types: a can be safely cast to b and is not b. -/
def DType.lt : DType → DType → Bool
  | .float s, .float t => decide (s < t)
  | .float s, .complex t => decide (s ≤ t)
  | .complex s, .complex t => decide (s < t)
  | .integer, .float _ => true
  | .integer, .complex _ => true
  | _, _ => false

/-- The number of bytes of the (parts of the) numbers. -/
def DType.size : DType → Nat
  | .float s => s
  | .complex s => s
  | _ => 0

/-- `np.finfo(dtype).eps`, which for a complex type is that of its parts. -/
def eps : DType → ℚ
  | .float 2 => 1 / 2 ^ 10
  | .complex 2 => 1 / 2 ^ 10
  | .float 4 => 1 / 2 ^ 23
  | .complex 4 => 1 / 2 ^ 23
  | .float 8 => 1 / 2 ^ 52
  | .complex 8 => 1 / 2 ^ 52
  | _ => 1 / 2 ^ 63

/-- An array: its type, its shape and its elements. -/
structure Arr where
  dtype : DType
  shape : List Nat
  get : List Nat → Val

/-- The indices of the elements of an array of a given shape. -/
def indices : List Nat → List (List Nat)
  | [] => [[]]
  | d :: shape => (List.range d).flatMap fun i => (indices shape).map (i :: ·)

/-- The shape with ones added on the left to have r dimensions. -/
def pad (r : Nat) (shape : List Nat) : List Nat := List.replicate (r - shape.length) 1 ++ shape

/-- Dimensions combined by the broadcasting. -/
def combine : List Nat → List Nat → Option (List Nat)
  | [], [] => some []
  | a :: s, b :: t =>
    if a = b then (combine s t).map (a :: ·)
    else if a = 1 then (combine s t).map (b :: ·)
    else if b = 1 then (combine s t).map (a :: ·)
    else none
  | _, _ => none

/-- The shape of an element-wise operation on two arrays, `none` if NumPy refuses them. -/
def broadcast (s t : List Nat) : Option (List Nat) :=
  combine (pad (max s.length t.length) s) (pad (max s.length t.length) t)

/-- The element of the array at an index of the broadcast shape: the added dimensions are dropped, and the dimensions
equal to 1 are repeated. -/
def Arr.at (a : Arr) (i : List Nat) : Val :=
  a.get (List.zipWith (fun d k => if d = 1 then 0 else k) a.shape (i.drop (i.length - a.shape.length)))

/-! ### assert_same -/

/-- The comparison of two elements: src/pyoperators/utils/testing.py:78-83. -/
def same (eps1 eps2 : ℚ) (x y : Val) : Bool :=
  (x.sub y).abs.le (((x.abs.min y.abs).scale eps1).shift eps2) || (x.isnan && y.isnan) || x.eq y

/-- What the function does. -/
inductive Outcome where
  | passes
  | assertionError
  | typeError
  | broadcastError
deriving DecidableEq

/-- The type that gives the tolerance: src/pyoperators/utils/testing.py:67-72 (`sorted` keeps the order of types that
cannot be compared). -/
def toleranceType (actual desired : DType) : DType :=
  if actual = .integer then desired
  else if desired = .integer then actual
  else if desired.lt actual then desired else actual

/-- `assert_same(actual, desired, atol, rtol, broadcasting)`: src/pyoperators/utils/testing.py:27-107.  Simplification:
for integer arrays that cannot be broadcast, which are reported by an error or by a failed assertion depending on the
version of NumPy, the error is returned. -/
def assertSame (actual desired : Arr) (atol rtol : ℚ) (broadcasting : Bool) : Outcome :=
  if actual.dtype = .other ∨ desired.dtype = .other then .typeError
  else if broadcasting = false ∧ actual.shape ≠ desired.shape then .assertionError
  else match broadcast actual.shape desired.shape with
    | none => .broadcastError
    | some shape =>
      if actual.dtype = .integer ∧ desired.dtype = .integer then
        if (indices shape).all fun i => (actual.at i).eq (desired.at i) then .passes else .assertionError
      else
        let e := eps (toleranceType actual.dtype desired.dtype)
        if (indices shape).all fun i => same (e * rtol) (e * atol) (actual.at i) (desired.at i) then .passes
        else .assertionError

/-! ### Lemmas -/

theorem mem_indices (shape i : List Nat) : i ∈ indices shape ↔ List.Forall₂ (· < ·) i shape := by
  induction shape generalizing i with
  | nil => simp [indices]
  | cons d shape ih =>
    simp only [indices, List.mem_flatMap, List.mem_range, List.mem_map]
    constructor
    · rintro ⟨k, hk, j, hj, rfl⟩
      exact List.Forall₂.cons hk ((ih j).1 hj)
    · intro h
      cases h with
      | cons h1 h2 => exact ⟨_, h1, _, (ih _).2 h2, rfl⟩

theorem combine_self (s : List Nat) : combine s s = some s := by
  induction s with
  | nil => rfl
  | cons d s ih => simp [combine, ih]

theorem broadcast_self (s : List Nat) : broadcast s s = some s := by
  simp [broadcast, pad, combine_self]

theorem combine_comm (s t : List Nat) : combine s t = combine t s := by
  induction s generalizing t with
  | nil => cases t <;> rfl
  | cons a s ih =>
    cases t with
    | nil => rfl
    | cons b t =>
      simp only [combine, ih t]
      by_cases hab : a = b
      · subst hab; rfl
      · rw [if_neg hab, if_neg (Ne.symm hab)]
        by_cases ha : a = 1
        · rw [if_pos ha]
          by_cases hb : b = 1
          · exact absurd (ha.trans hb.symm) hab
          · rw [if_neg hb, if_pos ha]
        · rw [if_neg ha]
          by_cases hb : b = 1
          · rw [if_pos hb, if_pos hb]
          · rw [if_neg hb, if_neg hb, if_neg ha]

theorem broadcast_comm (s t : List Nat) : broadcast s t = broadcast t s := by
  unfold broadcast
  rw [Nat.max_comm, combine_comm]

theorem eps_pos (d : DType) : 0 < eps d := by
  unfold eps
  split <;> norm_num

theorem at_self (a : Arr) (i : List Nat) (h : List.Forall₂ (· < ·) i a.shape) : a.at i = a.get i := by
  have hl := h.length_eq
  unfold Arr.at
  rw [hl, Nat.sub_self, List.drop_zero]
  congr 1
  clear hl
  generalize a.shape = s at h
  induction h with
  | nil => rfl
  | cons h1 _ ih =>
    rename_i k d i s h2
    simp only [List.zipWith_cons_cons, ih]
    congr 1
    split
    · omega
    · rfl

/-- What two elements must satisfy, by the documentation: they are both NaN, or they are the same, or they are finite and
differ by less than the tolerances in units of eps. -/
def Close (eps atol rtol : ℚ) (x y : Val) : Prop :=
  x = y ∨ ∃ p q, x = .fin p ∧ y = .fin q ∧ |p - q| ≤ eps * (rtol * min |p| |q| + atol)

/-- The infinities of opposite signs. -/
def Opposite (x y : Val) : Prop := x = .inf ∧ y = .ninf ∨ x = .ninf ∧ y = .inf

theorem same_iff (e atol rtol : ℚ) (x y : Val) (ho : ¬ Opposite x y) :
    same (e * rtol) (e * atol) x y = true ↔ Close e atol rtol x y := by
  unfold Close
  cases x <;> cases y
  case fin.fin p q =>
    have hmin : (Val.fin |p|).min (Val.fin |q|) = Val.fin (min |p| |q|) := by
      simp only [Val.min, Val.le, decide_eq_true_eq, min_def]
      split <;> rfl
    simp only [same, Val.abs, Val.sub, hmin, Val.scale, Val.shift, Val.le, Val.isnan, Val.eq, Bool.or_eq_true,
      decide_eq_true_eq, Bool.and_false, Bool.or_false, Val.fin.injEq, exists_and_left, exists_eq_left', Bool.false_eq_true,
      or_false]
    have e1 : e * rtol * min |p| |q| + e * atol = e * (rtol * min |p| |q| + atol) := by ring
    rw [e1, or_comm]
  case inf.ninf => exact absurd (Or.inl ⟨rfl, rfl⟩) ho
  case ninf.inf => exact absurd (Or.inr ⟨rfl, rfl⟩) ho
  all_goals
    simp [same, Val.abs, Val.sub, Val.min, Val.le, Val.scale, Val.shift, Val.isnan, Val.eq]

theorem same_comm (eps1 eps2 : ℚ) (x y : Val) : same eps1 eps2 x y = same eps1 eps2 y x := by
  unfold same
  have h1 : (x.sub y).abs = (y.sub x).abs := by
    cases x <;> cases y <;> simp [Val.sub, Val.abs, abs_sub_comm]
  have h2 : x.abs.min y.abs = y.abs.min x.abs := by
    cases x <;> cases y <;> simp [Val.min, Val.abs, Val.le]
    rename_i p q
    by_cases h : |p| ≤ |q|
    · rw [if_pos h]
      by_cases h' : |q| ≤ |p|
      · rw [if_pos h', le_antisymm h h']
      · rw [if_neg h']
    · rw [if_neg h, if_pos (le_of_lt (not_le.1 h))]
  have h3 : (x.isnan && y.isnan) = (y.isnan && x.isnan) := Bool.and_comm _ _
  have h4 : x.eq y = y.eq x := by
    cases x <;> cases y <;> simp [Val.eq, eq_comm]
  rw [h1, h2, h3, h4]

/-! ### Theorems -/

/-- The tolerance is that of the less precise of the types that are not integers. -/
def lessPrecise (a b : DType) : DType :=
  match a, b with
  | .integer, b => b
  | a, .integer => a
  | a, b => if b.size < a.size then b else a

/-- The types can be compared: one of them is an integer, or they are both real or both complex, or the real one is not
more precise than the complex one. -/
def Comparable : DType → DType → Prop
  | .float s, .complex t => s ≤ t
  | .complex s, .float t => t ≤ s
  | _, _ => True

theorem eps_parts (s : Nat) : eps (.float s) = eps (.complex s) := by
  by_cases h2 : s = 2
  · subst h2; rfl
  by_cases h4 : s = 4
  · subst h4; rfl
  by_cases h8 : s = 8
  · subst h8; rfl
  simp [eps, h2, h4, h8]

theorem tolerance_eq (a b : DType) (ha : a ≠ .other) (hb : b ≠ .other) (h : Comparable a b) :
    eps (toleranceType a b) = eps (lessPrecise a b) := by
  cases a with
  | other => exact absurd rfl ha
  | integer => cases b <;> rfl
  | float s =>
    cases b with
    | other => exact absurd rfl hb
    | integer => rfl
    | float t =>
      simp only [toleranceType, lessPrecise, DType.lt, reduceCtorEq, if_false, decide_eq_true_eq]
      rfl
    | complex t =>
      have h : s ≤ t := h
      have h' : ¬ (DType.complex t).size < (DType.float s).size := by simp only [DType.size]; omega
      simp only [toleranceType, lessPrecise, DType.lt, reduceCtorEq, if_false, Bool.false_eq_true]
      rw [if_neg h']
  | complex s =>
    cases b with
    | other => exact absurd rfl hb
    | integer => rfl
    | float t =>
      have h : t ≤ s := h
      simp only [toleranceType, lessPrecise, DType.lt, reduceCtorEq, if_false, decide_eq_true_eq]
      rw [if_pos h]
      by_cases h' : (DType.float t).size < (DType.complex s).size
      · rw [if_pos h']
      · have e : t = s := by simp only [DType.size] at h'; omega
        subst e
        rw [if_neg h', eps_parts]
    | complex t =>
      simp only [toleranceType, lessPrecise, DType.lt, reduceCtorEq, if_false, decide_eq_true_eq]
      rfl

/-- C108: without broadcasting, for types that can be compared and if the arrays have no opposite infinities at the same
place, `assert_same` passes if and only if the shapes are the same and the elements are close, in units of the eps of
the less precise of the types; otherwise it raises an AssertionError.  Partial: see `C108_infinity_fails` and
`C108_type_fails`. -/
theorem C108_same_partial (a d : Arr) (atol rtol : ℚ) (ha : a.dtype ≠ .other) (hd : d.dtype ≠ .other)
    (hi : ¬ (a.dtype = .integer ∧ d.dtype = .integer)) (hc : Comparable a.dtype d.dtype)
    (ho : ∀ i, List.Forall₂ (· < ·) i a.shape → ¬ Opposite (a.get i) (d.get i)) :
    (assertSame a d atol rtol false = .passes ↔ a.shape = d.shape ∧
      ∀ i, List.Forall₂ (· < ·) i a.shape → Close (eps (lessPrecise a.dtype d.dtype)) atol rtol (a.get i) (d.get i)) ∧
    (assertSame a d atol rtol false = .passes ∨ assertSame a d atol rtol false = .assertionError) := by
  unfold assertSame
  rw [if_neg (by simp [ha, hd])]
  by_cases hs : a.shape = d.shape
  · rw [if_neg (by simp [hs]), ← hs, broadcast_self]
    dsimp only
    rw [if_neg hi, tolerance_eq _ _ ha hd hc]
    have key : ((indices a.shape).all fun i => same (eps (lessPrecise a.dtype d.dtype) * rtol)
        (eps (lessPrecise a.dtype d.dtype) * atol) (a.at i) (d.at i)) = true ↔
        ∀ i, List.Forall₂ (· < ·) i a.shape →
          Close (eps (lessPrecise a.dtype d.dtype)) atol rtol (a.get i) (d.get i) := by
      rw [List.all_eq_true]
      constructor
      · intro h i hb
        have := h i ((mem_indices _ _).2 hb)
        rw [at_self a i hb, at_self d i (hs ▸ hb)] at this
        exact (same_iff _ _ _ _ _ (ho i hb)).1 this
      · intro h i hb
        have hb := (mem_indices _ _).1 hb
        rw [at_self a i hb, at_self d i (hs ▸ hb)]
        exact (same_iff _ _ _ _ _ (ho i hb)).2 (h i hb)
    split
    · rename_i h
      exact ⟨⟨fun _ => ⟨rfl, key.1 h⟩, fun _ => rfl⟩, Or.inl rfl⟩
    · rename_i h
      exact ⟨⟨fun h' => (by cases h'), fun h' => absurd (key.2 h'.2) h⟩, Or.inr rfl⟩
  · rw [if_pos ⟨rfl, hs⟩]
    exact ⟨⟨fun h => (by cases h), fun h => absurd h.1 hs⟩, Or.inr rfl⟩

/-- C108: integers are the same if they are equal, whatever the tolerances. -/
theorem C108_integers (a d : Arr) (atol rtol : ℚ) (ha : a.dtype = .integer) (hd : d.dtype = .integer)
    (hn : ∀ i, a.get i ≠ .nan) :
    assertSame a d atol rtol false = .passes ↔
      a.shape = d.shape ∧ ∀ i, List.Forall₂ (· < ·) i a.shape → a.get i = d.get i := by
  unfold assertSame
  rw [if_neg (by simp [ha, hd])]
  by_cases hs : a.shape = d.shape
  · rw [if_neg (by simp [hs]), ← hs, broadcast_self]
    dsimp only
    rw [if_pos ⟨ha, hd⟩]
    have eq_iff : ∀ x y : Val, x ≠ .nan → (x.eq y = true ↔ x = y) := by
      intro x y hx
      cases x <;> simp_all [Val.eq]
    have key : ((indices a.shape).all fun i => (a.at i).eq (d.at i)) = true ↔
        ∀ i, List.Forall₂ (· < ·) i a.shape → a.get i = d.get i := by
      rw [List.all_eq_true]
      constructor
      · intro h i hb
        have := h i ((mem_indices _ _).2 hb)
        rw [at_self a i hb, at_self d i (hs ▸ hb)] at this
        exact (eq_iff _ _ (hn i)).1 this
      · intro h i hb
        have hb := (mem_indices _ _).1 hb
        rw [at_self a i hb, at_self d i (hs ▸ hb)]
        exact (eq_iff _ _ (hn i)).2 (h i hb)
    split
    · rename_i h
      exact ⟨fun _ => ⟨rfl, key.1 h⟩, fun _ => rfl⟩
    · rename_i h
      exact ⟨fun h' => (by cases h'), fun h' => absurd (key.2 h'.2) h⟩
  · rw [if_pos ⟨rfl, hs⟩]
    exact ⟨fun h => (by cases h), fun h => absurd h.1 hs⟩

/-- C108: the comparison is symmetric for types that can be compared, with or without broadcasting.  Partial: see
`C108_type_fails`. -/
theorem C108_symmetric_partial (a d : Arr) (atol rtol : ℚ) (broadcasting : Bool) (ha : a.dtype ≠ .other)
    (hd : d.dtype ≠ .other) (hc : Comparable a.dtype d.dtype) :
    assertSame a d atol rtol broadcasting = assertSame d a atol rtol broadcasting := by
  have hc' : Comparable d.dtype a.dtype := by
    cases h : a.dtype <;> cases h' : d.dtype <;> simp_all [Comparable]
  have ht : eps (lessPrecise a.dtype d.dtype) = eps (lessPrecise d.dtype a.dtype) := by
    have key : ∀ x y : DType, x.size = y.size → x ≠ .integer → y ≠ .integer → x ≠ .other → y ≠ .other →
        eps x = eps y := by
      intro x y h hx hy hx' hy'
      cases x <;> cases y <;> simp_all [DType.size] <;> unfold eps <;> split <;> simp_all
    generalize a.dtype = x at *
    generalize d.dtype = y at *
    cases x <;> cases y <;> simp only [lessPrecise] <;> try rfl
    all_goals
      first
      | exact absurd rfl ha
      | exact absurd rfl hd
      | skip
    all_goals
      rename_i s t
      rcases Nat.lt_trichotomy s t with h | h | h
      · simp [DType.size, h, Nat.not_lt.2 (Nat.le_of_lt h)]
      · subst h
        simp only [DType.size, Nat.lt_irrefl, if_false]
        try exact key _ _ rfl (by simp) (by simp) (by simp) (by simp)
      · simp [DType.size, h, Nat.not_lt.2 (Nat.le_of_lt h)]
  unfold assertSame
  have hA : ¬ (a.dtype = .other ∨ d.dtype = .other) := by simp [ha, hd]
  have hD : ¬ (d.dtype = .other ∨ a.dtype = .other) := by simp [ha, hd]
  rw [if_neg hA, if_neg hD, broadcast_comm d.shape a.shape, tolerance_eq _ _ ha hd hc, tolerance_eq _ _ hd ha hc', ht]
  have hsame : ∀ (e1 e2 : ℚ) (i : List Nat), same e1 e2 (a.at i) (d.at i) = same e1 e2 (d.at i) (a.at i) :=
    fun e1 e2 i => same_comm e1 e2 _ _
  have heq : ∀ i : List Nat, (a.at i).eq (d.at i) = (d.at i).eq (a.at i) := by
    intro i
    cases a.at i <;> cases d.at i <;> simp [Val.eq, eq_comm]
  simp only [hsame, heq]
  have h1 : (broadcasting = false ∧ a.shape ≠ d.shape) ↔ (broadcasting = false ∧ d.shape ≠ a.shape) := by
    rw [ne_comm]
  have h2 : (a.dtype = .integer ∧ d.dtype = .integer) ↔ (d.dtype = .integer ∧ a.dtype = .integer) := and_comm
  simp only [h1, h2]

/-- C108: an array is the same as itself, also if some elements are infinite or NaN. -/
theorem C108_reflexive (a : Arr) (atol rtol : ℚ) (broadcasting : Bool) (ha : a.dtype ≠ .other)
    (hn : a.dtype = .integer → ∀ i, a.get i ≠ .nan) : assertSame a a atol rtol broadcasting = .passes := by
  unfold assertSame
  rw [if_neg (by simp [ha]), if_neg (by simp), broadcast_self]
  dsimp only
  split
  · rename_i hi
    rw [if_pos]
    rw [List.all_eq_true]
    intro i hb
    rw [at_self a i ((mem_indices _ _).1 hb)]
    have := hn hi.1 i
    cases h : a.get i <;> simp_all [Val.eq]
  · rw [if_pos]
    rw [List.all_eq_true]
    intro i _
    cases a.at i <;> simp [same, Val.isnan, Val.eq]

/-- C108: with broadcasting, an array of one dimension is compared with a number element by element. -/
theorem C108_scalar (a d : Arr) (atol rtol : ℚ) (n : Nat) (hs : a.shape = [n]) (hd : d.shape = [])
    (hta : a.dtype = .float 8) (htd : d.dtype = .float 8)
    (ho : ∀ k, k < n → ¬ Opposite (a.get [k]) (d.get [])) :
    assertSame a d atol rtol true = .passes ↔
      ∀ k, k < n → Close (eps (.float 8)) atol rtol (a.get [k]) (d.get []) := by
  have hb : broadcast [n] [] = some [n] := by
    unfold broadcast
    simp only [pad, List.length_cons, List.length_nil, combine]
    by_cases h : n = 1
    · subst h; rfl
    · simp [combine, h]
  have ha : ∀ k, k < n → a.at [k] = a.get [k] := by
    intro k hk
    exact at_self a [k] (by rw [hs]; exact List.Forall₂.cons hk .nil)
  have hd' : ∀ k, d.at [k] = d.get [] := by
    intro k
    simp [Arr.at, hd]
  unfold assertSame
  rw [if_neg (by simp [hta, htd]), if_neg (by simp), hs, hd, hb]
  dsimp only
  rw [if_neg (by simp [hta]), hta, htd]
  have ht : toleranceType (.float 8) (.float 8) = .float 8 := rfl
  rw [ht]
  have key : ((indices [n]).all fun i => same (eps (.float 8) * rtol) (eps (.float 8) * atol) (a.at i) (d.at i)) = true ↔
      ∀ k, k < n → Close (eps (.float 8)) atol rtol (a.get [k]) (d.get []) := by
    rw [List.all_eq_true]
    constructor
    · intro h k hk
      have := h [k] ((mem_indices _ _).2 (List.Forall₂.cons hk .nil))
      rw [ha k hk, hd' k] at this
      exact (same_iff _ _ _ _ _ (ho k hk)).1 this
    · intro h i hi
      have hi := (mem_indices _ _).1 hi
      cases hi with
      | cons h1 h2 =>
        cases h2
        rw [ha _ h1, hd']
        exact (same_iff _ _ _ _ _ (ho _ h1)).2 (h _ h1)
  split
  · rename_i h
    exact ⟨fun _ => key.1 h, fun _ => rfl⟩
  · rename_i h
    exact ⟨fun h' => (by cases h'), fun h' => absurd (key.2 h') h⟩

/-- The shape r is that of the broadcasting of the shapes s and t, aligned on the right and completed by ones: each of its
dimensions is that of both shapes, or that of one of them if the other one is 1. -/
inductive Combined : List Nat → List Nat → List Nat → Prop
  | nil : Combined [] [] []
  | both {s t r} (a : Nat) : Combined s t r → Combined (a :: s) (a :: t) (a :: r)
  | right {s t r} (b : Nat) : Combined s t r → Combined (1 :: s) (b :: t) (b :: r)
  | left {s t r} (a : Nat) : Combined s t r → Combined (a :: s) (1 :: t) (a :: r)

/-- The shape r is that of the broadcasting of the shapes s and t of different lengths: one of them is completed by ones
on its left. -/
def IsBroadcast (s t r : List Nat) : Prop :=
  ∃ m k, (m = 0 ∨ k = 0) ∧ Combined (List.replicate m 1 ++ s) (List.replicate k 1 ++ t) r

/-- The element j of an array of the shape s is the one that is repeated at the index i: the numbers of j are the last
ones of i, except in the dimensions equal to 1, in which the only index is 0. -/
def Repeated (s i j : List Nat) : Prop :=
  List.Forall₂ (· < ·) j s ∧ ∃ pre i', i = pre ++ i' ∧ i'.length = s.length ∧
    ∀ (k d : Nat), s[k]? = some d → d ≠ 1 → j[k]? = i'[k]?

theorem combine_iff (s t r : List Nat) : combine s t = some r ↔ Combined s t r := by
  constructor
  · intro h
    induction s generalizing t r with
    | nil =>
      cases t with
      | nil => cases h; exact .nil
      | cons b t => cases h
    | cons a s ih =>
      cases t with
      | nil => cases h
      | cons b t =>
        unfold combine at h
        split at h
        · rename_i hab
          subst hab
          obtain ⟨r', hr, rfl⟩ := Option.map_eq_some_iff.1 h
          exact .both a (ih _ _ hr)
        split at h
        · rename_i ha
          subst ha
          obtain ⟨r', hr, rfl⟩ := Option.map_eq_some_iff.1 h
          exact .right b (ih _ _ hr)
        split at h
        · rename_i hb
          subst hb
          obtain ⟨r', hr, rfl⟩ := Option.map_eq_some_iff.1 h
          exact .left a (ih _ _ hr)
        · cases h
  · intro h
    induction h with
    | nil => rfl
    | both a _ ih => simp [combine, ih]
    | right b _ ih =>
      by_cases h : 1 = b
      · subst h; simp [combine, ih]
      · simp [combine, ih, h]
    | left a _ ih =>
      by_cases h : a = 1
      · subst h; simp [combine, ih]
      · simp [combine, ih, h]

theorem combined_length {s t r : List Nat} (h : Combined s t r) : s.length = r.length ∧ t.length = r.length := by
  induction h with
  | nil => exact ⟨rfl, rfl⟩
  | both _ _ ih => simp [ih.1, ih.2]
  | right _ _ ih => simp [ih.1, ih.2]
  | left _ _ ih => simp [ih.1, ih.2]

theorem broadcast_iff (s t r : List Nat) : broadcast s t = some r ↔ IsBroadcast s t r := by
  unfold broadcast pad
  rw [combine_iff]
  constructor
  · intro h
    refine ⟨_, _, ?_, h⟩
    rcases Nat.le_total s.length t.length with hl | hl
    · right; omega
    · left; omega
  · rintro ⟨m, k, hmk, h⟩
    obtain ⟨h1, h2⟩ := combined_length h
    simp only [List.length_append, List.length_replicate] at h1 h2
    have e1 : max s.length t.length - s.length = m := by
      rcases hmk with e | e <;> omega
    have e2 : max s.length t.length - t.length = k := by
      rcases hmk with e | e <;> omega
    rw [e1, e2]
    exact h

theorem combined_bounds {s t r i : List Nat} (h : Combined s t r) (hi : List.Forall₂ (· < ·) i r) :
    List.Forall₂ (fun k d => k < d ∨ d = 1) i s ∧ List.Forall₂ (fun k d => k < d ∨ d = 1) i t := by
  induction h generalizing i with
  | nil => cases hi; exact ⟨.nil, .nil⟩
  | both a _ ih =>
    cases hi with
    | cons h1 h2 => exact ⟨.cons (Or.inl h1) (ih h2).1, .cons (Or.inl h1) (ih h2).2⟩
  | right b _ ih =>
    cases hi with
    | cons h1 h2 => exact ⟨.cons (Or.inr rfl) (ih h2).1, .cons (Or.inl h1) (ih h2).2⟩
  | left a _ ih =>
    cases hi with
    | cons h1 h2 => exact ⟨.cons (Or.inl h1) (ih h2).1, .cons (Or.inr rfl) (ih h2).2⟩

/-- The index that the model uses. -/
def align (s i : List Nat) : List Nat :=
  List.zipWith (fun d k => if d = 1 then 0 else k) s (i.drop (i.length - s.length))

theorem repeated_eq (s i j : List Nat) (h : Repeated s i j) : j = align s i := by
  obtain ⟨hb, pre, i', rfl, hl, hk⟩ := h
  unfold align
  rw [List.length_append, hl, Nat.add_sub_cancel, List.drop_left]
  clear pre
  induction hb generalizing i' with
  | nil => simp
  | cons h1 h2 ih =>
    rename_i k d j s
    cases i' with
    | nil => simp at hl
    | cons c i' =>
      simp only [List.zipWith_cons_cons]
      congr 1
      · split
        · omega
        · rename_i hd
          have := hk 0 d rfl hd
          simpa using this
      · refine ih i' (by simpa using hl) (fun k' d' hs hd => ?_)
        have := hk (k' + 1) d' (by simpa using hs) hd
        simpa using this

theorem repeated_align (m : Nat) (s i : List Nat) (h : List.Forall₂ (fun k d => k < d ∨ d = 1) i (List.replicate m 1 ++ s)) :
    Repeated s i (align s i) := by
  have hl := h.length_eq
  rw [List.length_append, List.length_replicate] at hl
  have hm : i.length - s.length = m := by omega
  have hd : List.Forall₂ (fun k d => k < d ∨ d = 1) (i.drop m) s := by
    have := List.forall₂_drop m h
    rwa [List.drop_left' (by simp)] at this
  unfold Repeated align
  rw [hm]
  refine ⟨?_, i.take m, i.drop m, (List.take_append_drop m i).symm, hd.length_eq, ?_⟩
  · clear hm hl h
    generalize i.drop m = l at hd
    induction hd with
    | nil => exact .nil
    | cons h1 _ ih =>
      rename_i k d l s _
      refine .cons ?_ ih
      dsimp only
      split <;> omega
  · intro k d hk hd'
    have hks : k < s.length := (List.getElem?_eq_some_iff.1 hk).1
    have hkl : k < (i.drop m).length := by rw [hd.length_eq]; exact hks
    rw [List.getElem?_zipWith, hk, List.getElem?_eq_getElem hkl]
    simp [hd']

/-- C108: with broadcasting, for types that can be compared and if no opposite infinities are compared, `assert_same`
refuses the shapes that cannot be broadcast, and otherwise passes if and only if the elements repeated at each index are
close.  Partial: see `C108_infinity_fails` and `C108_type_fails`. -/
theorem C108_broadcasting_partial (a d : Arr) (atol rtol : ℚ) (ha : a.dtype ≠ .other) (hd : d.dtype ≠ .other)
    (hi : ¬ (a.dtype = .integer ∧ d.dtype = .integer)) (hc : Comparable a.dtype d.dtype)
    (ho : ∀ j j', ¬ Opposite (a.get j) (d.get j')) :
    ((¬ ∃ r, IsBroadcast a.shape d.shape r) → assertSame a d atol rtol true = .broadcastError) ∧
    ∀ r, IsBroadcast a.shape d.shape r → (assertSame a d atol rtol true = .passes ↔
      ∀ i, List.Forall₂ (· < ·) i r → ∃ j j', Repeated a.shape i j ∧ Repeated d.shape i j' ∧
        Close (eps (lessPrecise a.dtype d.dtype)) atol rtol (a.get j) (d.get j')) := by
  unfold assertSame
  rw [if_neg (by simp [ha, hd]), if_neg (by simp)]
  constructor
  · intro h
    cases hb : broadcast a.shape d.shape with
    | none => rfl
    | some r => exact absurd ⟨r, (broadcast_iff _ _ _).1 hb⟩ h
  · intro r hr
    rw [(broadcast_iff _ _ _).2 hr]
    dsimp only
    rw [if_neg hi, tolerance_eq _ _ ha hd hc]
    obtain ⟨m, k, _, hcomb⟩ := hr
    have key : ((indices r).all fun i => same (eps (lessPrecise a.dtype d.dtype) * rtol)
        (eps (lessPrecise a.dtype d.dtype) * atol) (a.at i) (d.at i)) = true ↔
        ∀ i, List.Forall₂ (· < ·) i r → ∃ j j', Repeated a.shape i j ∧ Repeated d.shape i j' ∧
          Close (eps (lessPrecise a.dtype d.dtype)) atol rtol (a.get j) (d.get j') := by
      rw [List.all_eq_true]
      constructor
      · intro h i hb
        obtain ⟨h1, h2⟩ := combined_bounds hcomb hb
        exact ⟨_, _, repeated_align m _ _ h1, repeated_align k _ _ h2,
          (same_iff _ _ _ _ _ (ho _ _)).1 (h i ((mem_indices _ _).2 hb))⟩
      · intro h i hb
        obtain ⟨j, j', h1, h2, h3⟩ := h i ((mem_indices _ _).1 hb)
        rw [repeated_eq _ _ _ h1, repeated_eq _ _ _ h2] at h3
        exact (same_iff _ _ _ _ _ (ho _ _)).2 h3
    split
    · rename_i h
      exact ⟨fun _ => key.1 h, fun _ => rfl⟩
    · rename_i h
      exact ⟨fun h' => (by cases h'), fun h' => absurd (key.2 h') h⟩

/-- A number of a given type. -/
def number (t : DType) (v : Val) : Arr := ⟨t, [], fun _ => v⟩

/-- C108: the real code breaks the property for the infinities: plus infinity is the same as minus infinity, with the
default tolerances and with any positive relative tolerance, because infinity is not greater than the tolerance, which
is infinite too. -/
theorem C108_infinity_fails :
    (∀ atol rtol : ℚ, 0 < rtol → assertSame (number (.float 8) .inf) (number (.float 8) .ninf) atol rtol false = .passes) ∧
    ¬ Close (eps (.float 8)) 0 5 .inf .ninf := by
  constructor
  · intro atol rtol hr
    have he : 0 < eps (.float 8) * rtol := mul_pos (eps_pos _) hr
    have ht : toleranceType (.float 8) (.float 8) = .float 8 := rfl
    simp [assertSame, number, broadcast, pad, combine, indices, Arr.at, ht, same, Val.sub, Val.abs, Val.min, Val.le,
      Val.scale, he, Val.shift]
  · simp [Close]

/-- C108: the real code breaks the symmetry: a number in double precision and a complex number in single precision that
differ by one in 10^8 are the same or not depending on their order, because neither type can be cast to the other and
the first one gives the tolerance. -/
theorem C108_type_fails :
    assertSame (number (.float 8) (.fin 1)) (number (.complex 4) (.fin (1 + 1 / 10 ^ 8))) 0 5 false = .assertionError ∧
    assertSame (number (.complex 4) (.fin (1 + 1 / 10 ^ 8))) (number (.float 8) (.fin 1)) 0 5 false = .passes := by
  decide +kernel

/-- Instances: in double precision 1 and 1 + 4 eps are the same, 1 and 1 + 6 eps are not; NaN and infinities at the same
places are the same. -/
example : assertSame (number (.float 8) (.fin 1)) (number (.float 8) (.fin (1 + 4 / 2 ^ 52))) 0 5 false = .passes ∧
    assertSame (number (.float 8) (.fin 1)) (number (.float 8) (.fin (1 + 6 / 2 ^ 52))) 0 5 false = .assertionError := by
  decide +kernel

example : assertSame (number (.float 8) (.fin 1)) (number (.float 8) (.fin (1 + 4 / 2 ^ 52))) 0 5 false = .passes :=
  (C108_same_partial _ _ _ _ (by simp [number]) (by simp [number]) (by simp [number]) (by simp [number, Comparable])
    (by intro i _; simp [Opposite, number])).1.2 ⟨rfl, fun i _ => Or.inr ⟨1, 1 + 4 / 2 ^ 52, rfl, rfl, by
      norm_num [number, lessPrecise, DType.size, eps]⟩⟩

example : assertSame ⟨.integer, [2], fun i => if i = [0] then .fin 3 else .fin 4⟩
    ⟨.integer, [2], fun i => if i = [0] then .fin 3 else .fin 5⟩ 1000 1000 false ≠ .passes := by
  rw [Ne, C108_integers _ _ _ _ rfl rfl (by intro i; dsimp only; split <;> simp)]
  intro h
  have := h.2 [1] (List.Forall₂.cons (by decide) .nil)
  simp at this

example : assertSame ⟨.float 4, [2], fun i => if i = [0] then .nan else .inf⟩
    ⟨.float 4, [2], fun i => if i = [0] then .nan else .inf⟩ 0 0 false = .passes :=
  C108_reflexive _ _ _ _ (by simp) (by simp)

example : assertSame (number (.float 4) (.fin 1)) (number (.complex 8) (.fin 2)) 0 5 true =
    assertSame (number (.complex 8) (.fin 2)) (number (.float 4) (.fin 1)) 0 5 true :=
  C108_symmetric_partial _ _ _ _ _ (by simp [number]) (by simp [number]) (by simp [number, Comparable])

example : assertSame ⟨.float 8, [3], fun _ => .fin 2⟩ (number (.float 8) (.fin 2)) 0 5 true = .passes :=
  (C108_scalar _ _ _ _ 3 rfl rfl rfl rfl (by simp [Opposite])).2 fun _ _ => Or.inl rfl

/-- The column (1, 2) and the row (1, 1, 2): the last element of the row is not that of the first line of the column. -/
example : assertSame ⟨.float 8, [2, 1], fun j => if j = [0, 0] then .fin 1 else .fin 2⟩
    ⟨.float 8, [3], fun j => if j = [2] then .fin 2 else .fin 1⟩ 0 5 true ≠ .passes := by
  have hr : IsBroadcast [2, 1] [3] [2, 3] := ⟨0, 1, Or.inl rfl, .left 2 (.right 3 .nil)⟩
  rw [Ne, (C108_broadcasting_partial _ _ _ _ (by simp) (by simp) (by simp) (by simp [Comparable]) (by
    intro j j'
    simp only [Opposite]
    split <;> split <;> simp)).2 [2, 3] hr]
  intro h
  obtain ⟨j, j', h1, h2, h3⟩ := h [0, 2] (.cons (by decide) (.cons (by decide) .nil))
  rw [repeated_eq _ _ _ h1, repeated_eq _ _ _ h2] at h3
  rcases h3 with h3 | ⟨p, q, hp, hq, h3⟩
  · simp [align] at h3
  · simp [align] at hp hq
    subst hp
    subst hq
    revert h3
    norm_num [lessPrecise, DType.size, eps]

end Verif.AssertSame
