import Mathlib.Data.List.Basic
import Mathlib.Data.List.GetD
import Mathlib.Tactic.Cases

/-
Model of the search helpers: src/pyoperators/utils/misc.py:373-521 and 609-648 (`first`, `first_is_not`, `ifirst`, `ifirst_is_not`, `ilast`,
`ilast_is_not`, `last`, `last_is_not`), and 799-803 (`renumerate`).
-/

namespace Verif.Search

/-! ### Model -/

/-- A Python object: what the operators `==` and `is`, and a call with an object (if it is callable) return. -/
structure Objects (α : Type) where
  /-- `x == y`; `x != y` is its negation -/
  eq : α → α → Bool
  /-- `x is y` -/
  is : α → α → Bool
  /-- the truth value of `x(y)`, if x is callable -/
  call : α → Option (α → Bool)

variable {α : Type}

/-- `next(_ for _ in iterable if func(_))`: the elements are taken one by one; `none` stands for StopIteration. -/
def next (p : α → Bool) : List α → Option α
  | [] => none
  | x :: xs => if p x then some x else next p xs

/-- `next((i for i, _ in enumerate(iterable) if func(_)))`, the enumeration starts with i. -/
def nextIndex (p : α → Bool) : Nat → List α → Option Nat
  | _, [] => none
  | i, x :: xs => if p x then some i else nextIndex p (i + 1) xs

/-- `first(iterable, func)`: src/pyoperators/utils/misc.py:373-394; `none` is ValueError. -/
def first (l : List α) (func : α → Bool) : Option α := next func l

/-- `first_is_not(iterable, value)`: src/pyoperators/utils/misc.py:397-415. -/
def firstIsNot (o : Objects α) (l : List α) (v : α) : α := (next (fun x => !o.eq x v) l).getD v

/-- The argument `match` of `ifirst`: a Python function or an object. -/
inductive Match (α : Type) where
  | func (p : α → Bool)
  | value (v : α)

/-- `ifirst(iterable, match)`: src/pyoperators/utils/misc.py:418-446.  An object that is callable is called. -/
def ifirst (o : Objects α) (l : List α) : Match α → Option Nat
  | .func p => nextIndex p 0 l
  | .value v =>
    match o.call v with
    | none => nextIndex (fun x => o.eq x v) 0 l
    | some p => nextIndex p 0 l

/-- `ifirst_is_not(iterable, value)`: src/pyoperators/utils/misc.py:449-471. -/
def ifirstIsNot (o : Objects α) (l : List α) (v : α) : Option Nat := nextIndex (fun x => !o.is x v) 0 l

/-- `ilast(iterable, match)`: src/pyoperators/utils/misc.py:474-497. -/
def ilast (o : Objects α) (l : List α) (m : Match α) : Option Nat := (ifirst o l.reverse m).map fun i => l.length - i - 1

/-- `ilast_is_not(iterable, value)`: src/pyoperators/utils/misc.py:500-521. -/
def ilastIsNot (o : Objects α) (l : List α) (v : α) : Option Nat := (ifirstIsNot o l.reverse v).map fun i => l.length - i - 1

/-- `last(iterable, func)`: src/pyoperators/utils/misc.py:609-627. -/
def last (l : List α) (func : α → Bool) : Option α := first l.reverse func

/-- `last_is_not(iterable, value)`: src/pyoperators/utils/misc.py:630-648. -/
def lastIsNot (o : Objects α) (l : List α) (v : α) : α := firstIsNot o l.reverse v

/-- `renumerate(iterable)`: src/pyoperators/utils/misc.py:799-803; `range(len - 1, -1, -1)` zipped with the reversed list. -/
def renumerate (l : List α) : List (Nat × α) := (List.range l.length).reverse.zip l.reverse

/-! ### Specification: positions in the list -/

/-- i is the first position whose element satisfies p. -/
def IsFirst (p : α → Bool) (l : List α) (i : Nat) : Prop :=
  (∃ x, l[i]? = some x ∧ p x = true) ∧ ∀ j x, j < i → l[j]? = some x → p x = false

/-- i is the last position whose element satisfies p. -/
def IsLast (p : α → Bool) (l : List α) (i : Nat) : Prop :=
  (∃ x, l[i]? = some x ∧ p x = true) ∧ ∀ j x, i < j → l[j]? = some x → p x = false

/-- The condition of `ifirst` that the documentation describes: a value is matched by equality, a function by its truth value. -/
def wanted (o : Objects α) : Match α → α → Bool
  | .func p => p
  | .value v => fun x => o.eq x v

/-! ### Proofs -/

theorem nextIndex_some (p : α → Bool) : ∀ (l : List α) (k i : Nat),
    nextIndex p k l = some i ↔ k ≤ i ∧ IsFirst p l (i - k)
  | [], k, i => by simp [nextIndex, IsFirst]
  | x :: xs, k, i => by
    rw [nextIndex]
    by_cases hx : p x = true
    · rw [if_pos hx]
      constructor
      · intro h
        injection h with h
        subst h
        exact ⟨Nat.le_refl _, ⟨x, by simp, hx⟩, fun j y hj => by omega⟩
      · rintro ⟨hk, _, h2⟩
        by_cases hi : i = k
        · rw [hi]
        · have := h2 0 x (by omega) (by simp)
          rw [hx] at this
          cases this
    · rw [if_neg hx, nextIndex_some p xs (k + 1) i]
      have hx' : p x = false := by simpa using hx
      constructor
      · rintro ⟨hk, ⟨y, hy, hp⟩, h2⟩
        have e : i - k = (i - (k + 1)) + 1 := by omega
        refine ⟨by omega, ⟨y, by rw [e]; simpa using hy, hp⟩, ?_⟩
        intro j z hj hz
        cases j with
        | zero => simp at hz; rw [← hz]; exact hx'
        | succ j => exact h2 j z (by omega) (by simpa using hz)
      · rintro ⟨hk, ⟨y, hy, hp⟩, h2⟩
        by_cases hi : i = k
        · subst hi
          simp at hy
          rw [hy, hp] at hx'
          cases hx'
        · have e : i - k = (i - (k + 1)) + 1 := by omega
          rw [e] at hy
          refine ⟨by omega, ⟨y, by simpa using hy, hp⟩, ?_⟩
          intro j z hj hz
          exact h2 (j + 1) z (by omega) (by simpa using hz)

theorem nextIndex_none (p : α → Bool) : ∀ (l : List α) (k : Nat), nextIndex p k l = none ↔ ∀ x ∈ l, p x = false
  | [], k => by simp [nextIndex]
  | x :: xs, k => by
    rw [nextIndex]
    by_cases hx : p x = true
    · simp [hx]
    · simp [hx, nextIndex_none p xs (k + 1)]

theorem next_index (p : α → Bool) : ∀ (l : List α) (k : Nat), next p l = (nextIndex p k l).bind fun i => l[i - k]?
  | [], k => by simp [next, nextIndex]
  | x :: xs, k => by
    rw [next, nextIndex]
    by_cases hx : p x = true
    · simp [hx]
    · rw [if_neg hx, if_neg hx, next_index p xs (k + 1)]
      cases h : nextIndex p (k + 1) xs with
      | none => rfl
      | some i =>
        have := (nextIndex_some p xs (k + 1) i).1 h
        have e : i - k = (i - (k + 1)) + 1 := by omega
        simp [e]

theorem isFirst_reverse (p : α → Bool) (l : List α) (i : Nat) (hi : i < l.length) :
    IsFirst p l.reverse i ↔ IsLast p l (l.length - i - 1) := by
  have e : ∀ j, j < l.length → l.reverse[j]? = l[l.length - 1 - j]? := fun j hj => List.getElem?_reverse hj
  constructor
  · rintro ⟨⟨x, hx, hp⟩, h⟩
    refine ⟨⟨x, ?_, hp⟩, ?_⟩
    · rw [e i hi] at hx
      rw [← hx]; congr 1; omega
    · intro j y hj hy
      have hjl : j < l.length := by
        by_contra hc
        rw [List.getElem?_eq_none (by omega)] at hy
        cases hy
      refine h (l.length - 1 - j) y (by omega) ?_
      rw [e _ (by omega), ← hy]; congr 1; omega
  · rintro ⟨⟨x, hx, hp⟩, h⟩
    refine ⟨⟨x, ?_, hp⟩, ?_⟩
    · rw [e i hi, ← hx]; congr 1; omega
    · intro j y hj hy
      rw [e j (by omega)] at hy
      exact h (l.length - 1 - j) y (by omega) hy

theorem isFirst_lt {p : α → Bool} {l : List α} {i : Nat} (h : IsFirst p l i) : i < l.length := by
  obtain ⟨⟨x, hx, _⟩, _⟩ := h
  by_contra hc
  rw [List.getElem?_eq_none (by omega)] at hx
  cases hx

theorem isLast_lt {p : α → Bool} {l : List α} {i : Nat} (h : IsLast p l i) : i < l.length := by
  obtain ⟨⟨x, hx, _⟩, _⟩ := h
  by_contra hc
  rw [List.getElem?_eq_none (by omega)] at hx
  cases hx

theorem lastIndex (p : α → Bool) (l : List α) (i : Nat) :
    (nextIndex p 0 l.reverse).map (fun i => l.length - i - 1) = some i ↔ IsLast p l i := by
  rw [Option.map_eq_some_iff]
  constructor
  · rintro ⟨a, ha, rfl⟩
    have h := ((nextIndex_some p _ 0 a).1 ha).2
    have hl := isFirst_lt h
    rw [List.length_reverse] at hl
    exact (isFirst_reverse p l a hl).1 h
  · intro h
    have hl := isLast_lt h
    refine ⟨l.length - i - 1, (nextIndex_some p _ 0 _).2 ⟨by omega, ?_⟩, by omega⟩
    refine (isFirst_reverse p l _ (by omega)).2 ?_
    have e : l.length - (l.length - i - 1 - 0) - 1 = i := by omega
    rw [e]
    exact h

/-- **C91 (positions).** For all lists, conditions and values that are not callable, `ifirst` and `ilast` return the first and the last
positions that match, and raise ValueError only if no element matches.  Missing: values that are callable (see `C91_callable_fails`). -/
theorem C91_positions_partial (o : Objects α) (l : List α) (m : Match α) (hm : ∀ v, m = .value v → o.call v = none) :
    (∀ i, ifirst o l m = some i ↔ IsFirst (wanted o m) l i) ∧ (∀ i, ilast o l m = some i ↔ IsLast (wanted o m) l i) ∧
      (ifirst o l m = none ↔ ∀ x ∈ l, wanted o m x = false) ∧ (ilast o l m = none ↔ ∀ x ∈ l, wanted o m x = false) := by
  have e : ∀ l, ifirst o l m = nextIndex (wanted o m) 0 l := by
    intro l
    cases m with
    | func p => rfl
    | value v => simp [ifirst, hm v rfl, wanted]
  have h3 : ∀ l, ifirst o l m = none ↔ ∀ x ∈ l, wanted o m x = false := fun l => by rw [e]; exact nextIndex_none _ l 0
  refine ⟨fun i => ?_, fun i => ?_, h3 l, ?_⟩
  · rw [e, nextIndex_some]; simp
  · rw [ilast, e]; exact lastIndex _ l i
  · rw [ilast, Option.map_eq_none_iff, h3]; simp

/-- Objects that are integers: equality and identity are the same, and none is callable. -/
def ints : Objects Int := ⟨fun x y => x == y, fun x y => x == y, fun _ => none⟩

example : IsFirst (wanted ints (.func fun x => decide (x > 1))) [1, 2, 3] 1 ∧ IsLast (wanted ints (.value 0)) [3, 2, 0, 0] 3 := by
  have h := (C91_positions_partial ints [1, 2, 3] (.func fun x => decide (x > 1)) (by intro v hv; cases hv)).1 1
  have h' := (C91_positions_partial ints [3, 2, 0, 0] (.value 0) (by intro v _; rfl)).2.1 3
  exact ⟨h.1 (by decide), h'.1 (by decide)⟩

/-- **C91 (elements).** `first` and `last` return the elements at the first and last positions that match, for all lists and conditions; if there
is none, they raise ValueError. -/
theorem C91_elements (l : List α) (p : α → Bool) :
    (∀ i, IsFirst p l i → first l p = l[i]?) ∧ (∀ i, IsLast p l i → last l p = l[i]?) ∧
      (first l p = none ↔ ∀ x ∈ l, p x = false) ∧ (last l p = none ↔ ∀ x ∈ l, p x = false) := by
  have hn : ∀ l, next p l = none ↔ ∀ x ∈ l, p x = false := by
    intro l
    rw [← nextIndex_none p l 0, next_index p l 0]
    cases h : nextIndex p 0 l with
    | none => simp
    | some i =>
      obtain ⟨⟨x, hx, _⟩, _⟩ := ((nextIndex_some p l 0 i).1 h).2
      simp only [Nat.sub_zero] at hx
      simp [hx]
  have hf : ∀ l i, IsFirst p l i → next p l = l[i]? := by
    intro l i h
    rw [next_index p l 0, (nextIndex_some p l 0 i).2 ⟨by omega, by simpa using h⟩]
    simp
  refine ⟨fun i h => hf l i h, fun i h => ?_, hn l, ?_⟩
  · have hl := isLast_lt h
    have e : l.length - (l.length - 1 - i) - 1 = i := by omega
    rw [last, first, hf l.reverse (l.length - 1 - i) ((isFirst_reverse p l _ (by omega)).2 (by rw [e]; exact h)),
      List.getElem?_reverse (by omega)]
    congr 1; omega
  · rw [last, first, hn]; simp

example : first [1, 2, 3] (fun x => decide (x > 1)) = some 2 ∧ last [1, 2, 3] (fun x => decide (x > 1)) = some 3 := by decide

/-- **C91 (exclusions).** `first_is_not` and `last_is_not` return the first and the last elements that are not equal to the value, or the value if
all are; `ifirst_is_not` and `ilast_is_not` return the positions of these elements, and raise ValueError if there is none.  Missing: values
that are equal without being the same object (see `C91_identity_fails`). -/
theorem C91_exclusions_partial (o : Objects α) (l : List α) (v : α) (hv : ∀ x ∈ l, o.is x v = o.eq x v) :
    (∀ i, ifirstIsNot o l v = some i ↔ IsFirst (fun x => !o.eq x v) l i) ∧ (∀ i, ilastIsNot o l v = some i ↔ IsLast (fun x => !o.eq x v) l i) ∧
      (∀ i, IsFirst (fun x => !o.eq x v) l i → l[i]? = some (firstIsNot o l v)) ∧
      (∀ i, IsLast (fun x => !o.eq x v) l i → l[i]? = some (lastIsNot o l v)) ∧
      ((∀ x ∈ l, o.eq x v = true) → ifirstIsNot o l v = none ∧ ilastIsNot o l v = none ∧ firstIsNot o l v = v ∧ lastIsNot o l v = v) := by
  have c : ∀ (l : List α) (k : Nat), (∀ x ∈ l, o.is x v = o.eq x v) →
      nextIndex (fun x => !o.is x v) k l = nextIndex (fun x => !o.eq x v) k l := by
    intro l
    induction l with
    | nil => intros; rfl
    | cons x xs ih =>
      intro k h
      rw [nextIndex, nextIndex, h x (by simp), ih (k + 1) (fun y hy => h y (by simp [hy]))]
  have cr := c l.reverse 0 (fun x hx => hv x (by simpa using hx))
  obtain ⟨e1, e2, e3, e4⟩ := C91_elements l (fun x => !o.eq x v)
  refine ⟨fun i => ?_, fun i => ?_, fun i h => ?_, fun i h => ?_, fun h => ?_⟩
  · rw [ifirstIsNot, c l 0 hv, nextIndex_some]; simp
  · rw [ilastIsNot, ifirstIsNot, cr]; exact lastIndex _ l i
  · have h' := e1 i h
    obtain ⟨⟨x, hx, _⟩, _⟩ := h
    rw [first, hx] at h'
    rw [firstIsNot, h', hx]; rfl
  · have h' := e2 i h
    obtain ⟨⟨x, hx, _⟩, _⟩ := h
    rw [last, first, hx] at h'
    rw [lastIsNot, firstIsNot, h', hx]; rfl
  · have h1 := e3.2 (fun x hx => by simp [h x hx])
    have h2 := e4.2 (fun x hx => by simp [h x hx])
    rw [first] at h1
    rw [last, first] at h2
    refine ⟨?_, ?_, by rw [firstIsNot, h1]; rfl, by rw [lastIsNot, firstIsNot, h2]; rfl⟩
    · rw [ifirstIsNot, c l 0 hv, nextIndex_none]
      intro x hx; simp [h x hx]
    · rw [ilastIsNot, ifirstIsNot, cr, (nextIndex_none _ _ 0).2 (fun x hx => by simp [h x (by simpa using hx)])]
      rfl

example : firstIsNot ints [1, 1, 2, 3] 1 = 2 ∧ ifirstIsNot ints [1, 1, 2, 3] 1 = some 2 ∧ lastIsNot ints [1, 2, 3, 1] 1 = 3 ∧
    ilastIsNot ints [1, 2, 3, 1] 1 = some 2 ∧ firstIsNot ints [1, 1] 1 = 1 ∧ ifirstIsNot ints [1, 1] 1 = none := by decide

/-- Floating point numbers: objects with an address; two objects can have the same value. -/
def floats : Objects (Nat × Int) := ⟨fun x y => x.2 == y.2, fun x y => x == y, fun _ => none⟩

/-- **C91 (identity, negation).** `first_is_not` compares with `!=` but `ifirst_is_not` with `is not`.  With two objects of the same value,
as in `x = [1.5, 2.5]; v = 3 / 2`, the element returned by `first_is_not(x, v)` is the second, and the position returned by `ifirst_is_not(x, v)`
is the first; and with `x = [1.5]`, `ifirst_is_not` finds an element although all are the specified value. -/
theorem C91_identity_fails : ∃ (l : List (Nat × Int)) (v : Nat × Int),
    (∃ i, ifirstIsNot floats l v = some i ∧ l[i]? ≠ some (firstIsNot floats l v)) ∧
      ∃ (l' : List (Nat × Int)), (∀ x ∈ l', floats.eq x v = true) ∧ ifirstIsNot floats l' v ≠ none :=
  ⟨[(0, 15), (1, 25)], (2, 15), ⟨0, by decide⟩, [(0, 15)], by decide⟩

/-- Operators: they are equal if they have the same data, and calling an operator with another returns their composition, which is true. -/
def operators : Objects Int := ⟨fun x y => x == y, fun x y => x == y, fun _ => some fun _ => true⟩

/-- **C91 (callable values, negation).** A value that is callable, such as an operator, is not compared but called: `ifirst([A, B], B)` returns 0,
the position of A, although A and B are different. -/
theorem C91_callable_fails : ∃ (l : List Int) (v : Int) (i : Nat) (x : Int),
    ifirst operators l (.value v) = some i ∧ l[i]? = some x ∧ operators.eq x v = false :=
  ⟨[1, 2], 2, 0, 1, by decide⟩

/-- **C91 (reversed enumeration).** `renumerate` yields the pairs of `enumerate` in the reverse order: its k-th pair is the position len - 1 - k
and the element at this position. -/
theorem C91_renumerate (l : List α) : (renumerate l).length = l.length ∧
    ∀ k i x, (renumerate l)[k]? = some (i, x) ↔ k + i + 1 = l.length ∧ l[i]? = some x := by
  refine ⟨by simp [renumerate], fun k i x => ?_⟩
  rw [renumerate, List.getElem?_zip_eq_some]
  by_cases hk : k < l.length
  · rw [List.getElem?_reverse (by simpa using hk), List.getElem?_reverse hk, List.length_range, List.getElem?_range (by omega)]
    constructor
    · rintro ⟨h1, h2⟩
      simp only [Option.some.injEq] at h1
      subst h1
      exact ⟨by omega, h2⟩
    · rintro ⟨h1, h2⟩
      have e : l.length - 1 - k = i := by omega
      rw [e]
      exact ⟨rfl, h2⟩
  · constructor
    · rintro ⟨_, h2⟩
      rw [List.getElem?_eq_none (by simp; omega)] at h2
      cases h2
    · rintro ⟨h1, _⟩
      omega

example : renumerate ['a', 'b', 'c'] = [(2, 'c'), (1, 'b'), (0, 'a')] := by decide

end Verif.Search
