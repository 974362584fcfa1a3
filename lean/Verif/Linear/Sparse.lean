import Mathlib.Algebra.BigOperators.Intervals
import Mathlib.Algebra.BigOperators.Ring.Finset
import Mathlib.Data.Int.Interval
import Mathlib.Tactic.Ring
import Mathlib.Tactic.Linarith

/-
Model of the sparse operators: src/pyoperators/linear.py:514-637 (`SparseBase`, `SparseOperator`), with the loops of scipy.sparse._sparsetools that
`SparseOperator.direct` calls.
-/

namespace Verif.Sparse

open Finset

/-! ### Model -/

variable {K : Type} [CommRing K]

/-- The storage formats.  An array is a function of the index; only the elements of the array are read. -/
inductive Storage (K : Type) where
  | csr (indptr indices : ℕ → ℕ) (data : ℕ → K)
  | csc (indptr indices : ℕ → ℕ) (data : ℕ → K)
  | coo (nnz : ℕ) (row col : ℕ → ℕ) (data : ℕ → K)
  | bsr (r c : ℕ) (indptr indices : ℕ → ℕ) (data : ℕ → K)
  | dia (ndiags len : ℕ) (offsets : ℕ → ℤ) (data : ℕ → K)
  | dok (items : List ((ℕ × ℕ) × K))

/-- A sparse matrix. -/
structure Mat (K : Type) where
  rows : ℕ
  cols : ℕ
  storage : Storage K

/-- `y[i] += v` -/
def add (y : ℕ → K) (i : ℕ) (v : K) : ℕ → K := fun k => if k = i then y k + v else y k

/-- `for k in range(a, b): y = f(y, k)` -/
def loop {β : Type} (a b : ℕ) (f : β → ℕ → β) (y : β) : β := (List.range' a (b - a)).foldl f y

/-- `csr_matvec`: the sum of a row starts with the element of the output. -/
def csrMatvec (rows : ℕ) (indptr indices : ℕ → ℕ) (data x y : ℕ → K) : ℕ → K :=
  loop 0 rows (fun y i =>
    let s := loop (indptr i) (indptr (i + 1)) (fun s jj => s + data jj * x (indices jj)) (y i)
    fun k => if k = i then s else y k) y

/-- `csc_matvec` -/
def cscMatvec (cols : ℕ) (indptr indices : ℕ → ℕ) (data x y : ℕ → K) : ℕ → K :=
  loop 0 cols (fun y j => loop (indptr j) (indptr (j + 1)) (fun y ii => add y (indices ii) (data ii * x j)) y) y

/-- `coo_matvec` -/
def cooMatvec (nnz : ℕ) (row col : ℕ → ℕ) (data x y : ℕ → K) : ℕ → K :=
  loop 0 nnz (fun y n => add y (row n) (data n * x (col n))) y

/-- `bsr_matvec`: the blocks are stored one after the other, in C order. -/
def bsrMatvec (brows r c : ℕ) (indptr indices : ℕ → ℕ) (data x y : ℕ → K) : ℕ → K :=
  loop 0 brows (fun y i =>
    loop (indptr i) (indptr (i + 1)) (fun y jj =>
      loop 0 r (fun y bi => loop 0 c (fun y bj => add y (r * i + bi) (data (r * c * jj + c * bi + bj) * x (c * indices jj + bj))) y) y) y) y

/-- `dia_matvec` -/
def diaMatvec (rows cols ndiags len : ℕ) (offsets : ℕ → ℤ) (data x y : ℕ → K) : ℕ → K :=
  loop 0 ndiags (fun y d =>
    let k := offsets d
    let istart := (max 0 (-k)).toNat
    let jstart := (max 0 k).toNat
    let jend := (min (min (rows + k) cols) len).toNat
    loop 0 (jend - jstart) (fun y n => add y (istart + n) (data (d * len + jstart + n) * x (jstart + n))) y) y

/-- The choice of the loop: src/pyoperators/linear.py:614-631. -/
def matvec (m : Mat K) (x y : ℕ → K) : ℕ → K :=
  match m.storage with
  | .dok items => items.foldl (fun y e => add y e.1.1 (e.2 * x e.1.2)) y
  | .csr p ix d => csrMatvec m.rows p ix d x y
  | .csc p ix d => cscMatvec m.cols p ix d x y
  | .coo nnz row col d => cooMatvec nnz row col d x y
  | .bsr r c p ix d => bsrMatvec (m.rows / r) r c p ix d x y
  | .dia nd len off d => diaMatvec m.rows m.cols nd len off d x y

/-- The operations of the update of the output. -/
inductive Operation where
  | assign
  | iadd
  | other

/-- `SparseOperator.direct`: src/pyoperators/linear.py:607-631.  The input and the output are contiguous, their dtype is the one of the matrix; the
exception of line 613 is `none`. -/
def direct (m : Mat K) (op : Operation) (x y : ℕ → K) : Option (ℕ → K) :=
  match op with
  | .assign => some (matvec m x fun _ => 0)
  | .iadd => some (matvec m x y)
  | .other => none

/-- The method `transpose` of the sparse matrices, for the formats in which it only exchanges arrays: CSR, CSC, COO and DOK. -/
def Mat.transpose (m : Mat K) : Option (Mat K) :=
  match m.storage with
  | .csr p ix d => some ⟨m.cols, m.rows, .csc p ix d⟩
  | .csc p ix d => some ⟨m.cols, m.rows, .csr p ix d⟩
  | .coo nnz row col d => some ⟨m.cols, m.rows, .coo nnz col row d⟩
  | .dok items => some ⟨m.cols, m.rows, .dok (items.map fun e => ((e.1.2, e.1.1), e.2))⟩
  | _ => none

/-- The result of an evaluation by Python: a value, an exception, or the exception RecursionError when the stack is full. -/
inductive Outcome (α : Type) where
  | value (a : α)
  | typeError
  | recursionError

/-- The operands of the composition of a scalar and a sparse operator, after the simplification. -/
inductive Operand (K : Type) where
  | sparse (m : Mat K)
  | product (c : K) (m : Mat K)

/-- `HomothetyOperator(c) * SparseOperator(m)`, c not being zero.  If c is one, nothing is done.  Otherwise, the scalar is absorbed by the rule of src/pyoperators/linear.py:601-605
(see src/pyoperators/core.py:2451-2490), whose predicate evaluates `o * s.matrix`, in which `o` is `HomothetyOperator(c)` and `s.matrix` the SciPy
matrix.  `Operator.__mul__` (core.py:1480-1499) is called, it converts the matrix to `SparseOperator(m)`, and the composition is simplified in turn.
The result is an operator, which `SparseOperator.__init__` refuses (579-580).  `depth` is the number of calls that the stack can hold. -/
def scaleSparse [DecidableEq K] : ℕ → K → Mat K → Outcome (Operand K)
  | 0, _, _ => .recursionError
  | depth + 1, c, m =>
    if c = 1 then .value (.sparse m)
    else match scaleSparse depth c m with
    | .value _ => .typeError
    | e => e

/-! ### Specification -/

/-- The element (i, j) of the matrix: in all formats, the elements that are stored several times are added.  Definition of the formats by SciPy. -/
def entry (m : Mat K) (i j : ℕ) : K :=
  match m.storage with
  | .csr p ix d => ∑ k ∈ Ico (p i) (p (i + 1)), if ix k = j then d k else 0
  | .csc p ix d => ∑ k ∈ Ico (p j) (p (j + 1)), if ix k = i then d k else 0
  | .coo nnz row col d => ∑ k ∈ range nnz, if row k = i ∧ col k = j then d k else 0
  | .bsr r c p ix d => ∑ k ∈ Ico (p (i / r)) (p (i / r + 1)), if ix k = j / c then d (r * c * k + c * (i % r) + j % c) else 0
  | .dia nd len off d => ∑ k ∈ range nd, if (j : ℤ) - i = off k ∧ j < len then d (k * len + j) else 0
  | .dok items => (items.map fun e => if e.1 = (i, j) then e.2 else 0).sum

/-- The indices of the stored elements are those of elements of the matrix. -/
def Mat.Valid (m : Mat K) : Prop :=
  match m.storage with
  | .csr p ix _ => ∀ i < m.rows, ∀ k, p i ≤ k → k < p (i + 1) → ix k < m.cols
  | .csc p ix _ => ∀ j < m.cols, ∀ k, p j ≤ k → k < p (j + 1) → ix k < m.rows
  | .coo nnz row col _ => ∀ k < nnz, row k < m.rows ∧ col k < m.cols
  | .bsr r c p ix _ => 0 < r ∧ 0 < c ∧ r ∣ m.rows ∧ c ∣ m.cols ∧ ∀ i < m.rows / r, ∀ k, p i ≤ k → k < p (i + 1) → ix k < m.cols / c
  | .dia _ _ _ _ => True
  | .dok items => ∀ e ∈ items, e.1.1 < m.rows ∧ e.1.2 < m.cols

/-! ### Proofs -/

theorem loop_sum {a b : ℕ} (f : (ℕ → K) → ℕ → ℕ → K) (g : ℕ → ℕ → K) (hf : ∀ y k i, a ≤ k → k < b → f y k i = y i + g k i) (y : ℕ → K) (i : ℕ) :
    loop a b f y i = y i + ∑ k ∈ Ico a b, g k i := by
  unfold loop
  by_cases hab : a ≤ b
  · obtain ⟨n, rfl⟩ := Nat.exists_eq_add_of_le hab
    rw [Nat.add_sub_cancel_left]
    induction n with
    | zero => simp
    | succ n ih =>
      rw [List.range'_concat, List.foldl_append, List.foldl_cons, List.foldl_nil, one_mul, ← Nat.add_assoc, sum_Ico_succ_top (by omega),
        hf _ _ _ (by omega) (by omega), ih (fun y k i h1 h2 => hf y k i h1 (by omega)) (by omega)]
      ring
  · rw [Nat.sub_eq_zero_of_le (by omega), Ico_eq_empty (by omega)]
    simp

theorem loop_scalar {a b : ℕ} (g : ℕ → K) (s : K) : loop a b (fun s k => s + g k) s = s + ∑ k ∈ Ico a b, g k := by
  unfold loop
  by_cases hab : a ≤ b
  · obtain ⟨n, rfl⟩ := Nat.exists_eq_add_of_le hab
    rw [Nat.add_sub_cancel_left]
    induction n generalizing s with
    | zero => simp
    | succ n ih =>
      rw [List.range'_concat, List.foldl_append, List.foldl_cons, List.foldl_nil, one_mul, ← Nat.add_assoc, sum_Ico_succ_top (by omega), ih s (by omega)]
      ring
  · rw [Nat.sub_eq_zero_of_le (by omega), Ico_eq_empty (by omega)]
    simp

theorem add_apply (y : ℕ → K) (i k : ℕ) (v : K) : add y i v k = y k + if i = k then v else 0 := by
  unfold add
  by_cases h : k = i
  · simp [h]
  · simp [h, Ne.symm h]

theorem csr_correct {rows cols : ℕ} {p ix : ℕ → ℕ} {d : ℕ → K} (hv : ∀ i < rows, ∀ k, p i ≤ k → k < p (i + 1) → ix k < cols) (x y : ℕ → K) {i : ℕ}
    (hi : i < rows) : csrMatvec rows p ix d x y i = y i + ∑ j ∈ range cols, (∑ k ∈ Ico (p i) (p (i + 1)), if ix k = j then d k else 0) * x j := by
  unfold csrMatvec
  rw [loop_sum _ (fun k i => if i = k then ∑ jj ∈ Ico (p k) (p (k + 1)), d jj * x (ix jj) else 0)]
  · rw [sum_ite_eq, if_pos (by simp [hi])]
    congr 1
    simp_rw [sum_mul]
    rw [sum_comm]
    refine sum_congr rfl fun k hk => ?_
    rw [mem_Ico] at hk
    simp only [ite_mul, zero_mul]
    rw [sum_ite_eq, if_pos (mem_range.2 (hv i hi k hk.1 hk.2))]
  · intro y k i _ _
    simp only [loop_scalar]
    split
    · next h => subst h; rfl
    · simp

theorem csc_correct {cols : ℕ} {p ix : ℕ → ℕ} {d : ℕ → K} (x y : ℕ → K) {i : ℕ} :
    cscMatvec cols p ix d x y i = y i + ∑ j ∈ range cols, (∑ k ∈ Ico (p j) (p (j + 1)), if ix k = i then d k else 0) * x j := by
  unfold cscMatvec
  rw [loop_sum _ (fun j i => ∑ k ∈ Ico (p j) (p (j + 1)), if ix k = i then d k * x j else 0)]
  · rw [Nat.Ico_zero_eq_range]
    congr 1
    refine sum_congr rfl fun j _ => ?_
    rw [sum_mul]
    simp only [ite_mul, zero_mul]
  · intro y j i _ _
    rw [loop_sum _ (fun k i => if ix k = i then d k * x j else 0)]
    intro y k i _ _
    rw [add_apply]

theorem coo_correct {nnz cols : ℕ} {row col : ℕ → ℕ} {d : ℕ → K} (hv : ∀ k < nnz, col k < cols) (x y : ℕ → K) {i : ℕ} :
    cooMatvec nnz row col d x y i = y i + ∑ j ∈ range cols, (∑ k ∈ range nnz, if row k = i ∧ col k = j then d k else 0) * x j := by
  unfold cooMatvec
  rw [loop_sum _ (fun k i => if row k = i then d k * x (col k) else 0) (fun y k i _ _ => add_apply _ _ _ _), Nat.Ico_zero_eq_range]
  congr 1
  simp_rw [sum_mul]
  rw [sum_comm]
  refine sum_congr rfl fun k hk => ?_
  by_cases h : row k = i
  · simp only [h, if_true, true_and, ite_mul, zero_mul]
    rw [sum_ite_eq, if_pos (mem_range.2 (hv k (mem_range.1 hk)))]
  · simp [h]

theorem dok_fold (x : ℕ → K) (i : ℕ) : ∀ (l : List ((ℕ × ℕ) × K)) (y : ℕ → K),
    l.foldl (fun y e => add y e.1.1 (e.2 * x e.1.2)) y i = y i + (l.map fun e => if e.1.1 = i then e.2 * x e.1.2 else 0).sum
  | [], y => by simp
  | e :: l, y => by
    rw [List.foldl_cons, dok_fold x i l, add_apply, List.map_cons, List.sum_cons]
    ring

theorem dok_sum (x : ℕ → K) (i cols : ℕ) : ∀ l : List ((ℕ × ℕ) × K), (∀ e ∈ l, e.1.2 < cols) →
    (l.map fun e => if e.1.1 = i then e.2 * x e.1.2 else 0).sum = ∑ j ∈ range cols, (l.map fun e => if e.1 = (i, j) then e.2 else 0).sum * x j
  | [], _ => by simp
  | e :: l, h => by
    have ih := dok_sum x i cols l (fun e he => h e (List.mem_cons_of_mem _ he))
    simp only [List.map_cons, List.sum_cons, add_mul, sum_add_distrib, ih]
    congr 1
    obtain ⟨⟨a, b⟩, v⟩ := e
    have hb : b < cols := h ((a, b), v) (by simp)
    by_cases ha : a = i
    · simp only [ha, if_true, Prod.mk.injEq, true_and, ite_mul, zero_mul]
      rw [sum_ite_eq, if_pos (mem_range.2 hb)]
    · simp [ha]

/-- A sum over the columns is a sum over the columns of blocks and the columns of a block. -/
theorem sum_blocks {c : ℕ} (hc : 0 < c) (f : ℕ → K) : ∀ n, ∑ j ∈ range (n * c), f j = ∑ a ∈ range n, ∑ b ∈ range c, f (c * a + b)
  | 0 => by simp
  | n + 1 => by
    rw [sum_range_succ, ← sum_blocks hc f n, Nat.succ_mul, sum_range_add]
    congr 1
    refine sum_congr rfl fun b _ => by rw [Nat.mul_comm]

theorem bsr_correct {rows cols r c : ℕ} {p ix : ℕ → ℕ} {d : ℕ → K} (hr : 0 < r) (hc : 0 < c) (hrd : r ∣ rows) (hcd : c ∣ cols)
    (hv : ∀ i < rows / r, ∀ k, p i ≤ k → k < p (i + 1) → ix k < cols / c) (x y : ℕ → K) {i : ℕ} (hi : i < rows) :
    bsrMatvec (rows / r) r c p ix d x y i = y i +
      ∑ j ∈ range cols, (∑ k ∈ Ico (p (i / r)) (p (i / r + 1)), if ix k = j / c then d (r * c * k + c * (i % r) + j % c) else 0) * x j := by
  obtain ⟨nr, rfl⟩ := hrd
  obtain ⟨nc, rfl⟩ := hcd
  rw [Nat.mul_div_cancel_left _ hr, Nat.mul_div_cancel_left _ hc] at *
  have hb : i / r < nr := Nat.div_lt_of_lt_mul hi
  have inner : ∀ (y : ℕ → K) (q jj k : ℕ),
      loop 0 r (fun y bi => loop 0 c (fun y bj => add y (r * q + bi) (d (r * c * jj + c * bi + bj) * x (c * ix jj + bj))) y) y k =
      y k + if k / r = q then ∑ b ∈ range c, d (r * c * jj + c * (k % r) + b) * x (c * ix jj + b) else 0 := by
    intro y q jj k
    rw [loop_sum _ (fun bi k => if r * q + bi = k then ∑ b ∈ range c, d (r * c * jj + c * bi + b) * x (c * ix jj + b) else 0)]
    · congr 1
      rw [Nat.Ico_zero_eq_range]
      split
      · next h =>
        rw [sum_eq_single (k % r)]
        · rw [if_pos]
          rw [← h]; exact Nat.div_add_mod k r
        · intro b hb hne
          rw [if_neg]
          rintro rfl
          rw [Nat.mul_add_mod, Nat.mod_eq_of_lt (mem_range.1 hb)] at hne
          exact hne rfl
        · intro hn
          exact absurd (mem_range.2 (Nat.mod_lt k hr)) hn
      · next h =>
        refine sum_eq_zero fun b hb => if_neg ?_
        rintro rfl
        rw [Nat.mul_add_div hr, Nat.div_eq_of_lt (mem_range.1 hb)] at h
        exact h rfl
    · intro y bi k _ _
      rw [loop_sum _ (fun bj k => if r * q + bi = k then d (r * c * jj + c * bi + bj) * x (c * ix jj + bj) else 0) (fun y b k _ _ => add_apply _ _ _ _),
        Nat.Ico_zero_eq_range]
      split <;> simp
  unfold bsrMatvec
  rw [loop_sum _ (fun q k => ∑ jj ∈ Ico (p q) (p (q + 1)), if k / r = q then ∑ b ∈ range c, d (r * c * jj + c * (k % r) + b) * x (c * ix jj + b) else 0)
    (fun y q k _ _ => loop_sum _ _ (fun y jj k _ _ => inner y q jj k) y k), Nat.Ico_zero_eq_range]
  congr 1
  rw [sum_eq_single (i / r) (fun q _ hq => sum_eq_zero fun jj _ => if_neg (Ne.symm hq)) (fun h => absurd (mem_range.2 hb) h)]
  simp only [if_true]
  rw [Nat.mul_comm c nc, sum_blocks hc]
  have e : ∀ a b, b < c → (c * a + b) / c = a ∧ (c * a + b) % c = b := fun a b hb =>
    ⟨by rw [Nat.mul_add_div hc, Nat.div_eq_of_lt hb, Nat.add_zero], by rw [Nat.mul_add_mod, Nat.mod_eq_of_lt hb]⟩
  have e2 : ∑ a ∈ range nc, ∑ b ∈ range c,
      (∑ k ∈ Ico (p (i / r)) (p (i / r + 1)), if ix k = (c * a + b) / c then d (r * c * k + c * (i % r) + (c * a + b) % c) else 0) * x (c * a + b) =
      ∑ a ∈ range nc, ∑ b ∈ range c, ∑ k ∈ Ico (p (i / r)) (p (i / r + 1)), if ix k = a then d (r * c * k + c * (i % r) + b) * x (c * a + b) else 0 := by
    refine sum_congr rfl fun a _ => sum_congr rfl fun b hb => ?_
    rw [(e a b (mem_range.1 hb)).1, (e a b (mem_range.1 hb)).2, sum_mul]
    simp only [ite_mul, zero_mul]
  rw [e2]
  have e3 : ∀ a, ∑ b ∈ range c, ∑ k ∈ Ico (p (i / r)) (p (i / r + 1)), (if ix k = a then d (r * c * k + c * (i % r) + b) * x (c * a + b) else 0) =
      ∑ k ∈ Ico (p (i / r)) (p (i / r + 1)), if ix k = a then ∑ b ∈ range c, d (r * c * k + c * (i % r) + b) * x (c * a + b) else 0 := by
    intro a
    rw [sum_comm]
    refine sum_congr rfl fun k _ => ?_
    split <;> simp
  simp_rw [e3]
  symm
  rw [sum_comm]
  refine sum_congr rfl fun k hk => ?_
  rw [mem_Ico] at hk
  rw [sum_ite_eq, if_pos (mem_range.2 (hv _ hb k hk.1 hk.2))]

theorem dia_correct {rows cols nd len : ℕ} {off : ℕ → ℤ} {d : ℕ → K} (x y : ℕ → K) {i : ℕ} (hi : i < rows) :
    diaMatvec rows cols nd len off d x y i = y i +
      ∑ j ∈ range cols, (∑ k ∈ range nd, if (j : ℤ) - i = off k ∧ j < len then d (k * len + j) else 0) * x j := by
  unfold diaMatvec
  rw [loop_sum _ (fun k i => ∑ n ∈ range ((min (min (rows + off k) cols) len).toNat - (max 0 (off k)).toNat),
    if (max 0 (-off k)).toNat + n = i then d (k * len + (max 0 (off k)).toNat + n) * x ((max 0 (off k)).toNat + n) else 0), Nat.Ico_zero_eq_range]
  · congr 1
    simp_rw [sum_mul]
    rw [sum_comm]
    refine sum_congr rfl fun k _ => ?_
    simp only [ite_mul, zero_mul]
    by_cases hj : 0 ≤ (i : ℤ) + off k ∧ (i : ℤ) + off k < cols ∧ (i : ℤ) + off k < len
    · obtain ⟨j, hj'⟩ := Int.eq_ofNat_of_zero_le hj.1
      rw [sum_eq_single (i - (max 0 (-off k)).toNat), sum_eq_single j]
      · rw [if_pos (by omega), if_pos (by omega)]
        rw [show (max 0 (off k)).toNat + (i - (max 0 (-off k)).toNat) = j by omega, Nat.add_assoc,
          show (max 0 (off k)).toNat + (i - (max 0 (-off k)).toNat) = j by omega]
      · intro b _ hb
        exact if_neg (by omega)
      · intro hn
        exact absurd (mem_range.2 (by omega)) hn
      · intro b _ hb
        exact if_neg (by omega)
      · intro hn
        exact absurd (mem_range.2 (by omega)) hn
    · rw [sum_eq_zero, sum_eq_zero]
      · intro j hjr
        rw [mem_range] at hjr
        exact if_neg (by omega)
      · intro n hn
        rw [mem_range] at hn
        exact if_neg (by omega)
  · intro y k i _ _
    rw [loop_sum _ (fun n i => if (max 0 (-off k)).toNat + n = i then d (k * len + (max 0 (off k)).toNat + n) * x ((max 0 (off k)).toNat + n) else 0)
      (fun y n i _ _ => add_apply _ _ _ _), Nat.Ico_zero_eq_range]

/-- C89: for all storage formats, the operator multiplies by the matrix; with the in-place addition, the product is added to the output. -/
theorem C89_product {m : Mat K} (hm : m.Valid) (x y : ℕ → K) :
    (∃ z, direct m .assign x y = some z ∧ ∀ i < m.rows, z i = ∑ j ∈ range m.cols, entry m i j * x j) ∧
    ∃ z, direct m .iadd x y = some z ∧ ∀ i < m.rows, z i = y i + ∑ j ∈ range m.cols, entry m i j * x j := by
  obtain ⟨rows, cols, storage⟩ := m
  have key : ∀ y : ℕ → K, ∀ i < rows, matvec ⟨rows, cols, storage⟩ x y i = y i + ∑ j ∈ range cols, entry ⟨rows, cols, storage⟩ i j * x j := by
    intro y i hi
    cases storage with
    | csr p ix d => exact csr_correct hm x y hi
    | csc p ix d => exact csc_correct x y
    | coo nnz row col d => exact coo_correct (fun k hk => (hm k hk).2) x y
    | bsr r c p ix d => exact bsr_correct hm.1 hm.2.1 hm.2.2.1 hm.2.2.2.1 hm.2.2.2.2 x y hi
    | dia nd len off d => exact dia_correct x y hi
    | dok items => simp only [entry, matvec]; rw [dok_fold, dok_sum x i cols items (fun e he => (hm e he).2)]
  refine ⟨⟨_, rfl, fun i hi => ?_⟩, ⟨_, rfl, fun i hi => ?_⟩⟩
  · have := key (fun _ => 0) i hi
    rw [zero_add] at this
    exact this
  · exact key y i hi

theorem sum_pair (i j : ℕ) (l : List ((ℕ × ℕ) × K)) :
    ((l.map fun e => ((e.1.2, e.1.1), e.2)).map fun e => if e.1 = (j, i) then e.2 else 0).sum = (l.map fun e => if e.1 = (i, j) then e.2 else 0).sum := by
  rw [List.map_map]
  congr 1
  refine List.map_congr_left fun e _ => ?_
  obtain ⟨⟨a, b⟩, v⟩ := e
  simp only [Function.comp, Prod.mk.injEq, and_comm]

/-- C89: the transpose of an operator in one of the formats CSR, CSC, COO and DOK multiplies by the transpose of the matrix. -/
theorem C89_transpose_partial {m t : Mat K} (hm : m.Valid) (h : m.transpose = some t) (x y : ℕ → K) :
    t.rows = m.cols ∧ t.cols = m.rows ∧ ∃ z, direct t .assign x y = some z ∧ ∀ j < m.cols, z j = ∑ i ∈ range m.rows, entry m i j * x i := by
  obtain ⟨rows, cols, storage⟩ := m
  have key : t.rows = cols ∧ t.cols = rows ∧ t.Valid ∧ ∀ i j, entry t j i = entry ⟨rows, cols, storage⟩ i j := by
    cases storage with
    | csr p ix d => cases h; exact ⟨rfl, rfl, hm, fun i j => rfl⟩
    | csc p ix d => cases h; exact ⟨rfl, rfl, hm, fun i j => rfl⟩
    | coo nnz row col d =>
      cases h
      refine ⟨rfl, rfl, fun k hk => ⟨(hm k hk).2, (hm k hk).1⟩, fun i j => ?_⟩
      simp only [entry, and_comm]
    | bsr r c p ix d => cases h
    | dia nd len off d => cases h
    | dok items =>
      cases h
      refine ⟨rfl, rfl, fun e he => ?_, fun i j => ?_⟩
      · rw [List.mem_map] at he
        obtain ⟨e, he, rfl⟩ := he
        exact ⟨(hm e he).2, (hm e he).1⟩
      · simp only [entry]
        exact sum_pair i j items
  obtain ⟨h1, h2, h3, h4⟩ := key
  obtain ⟨z, hz, hz'⟩ := (C89_product h3 x y).1
  refine ⟨h1, h2, z, hz, fun j hj => ?_⟩
  rw [hz' j (by rw [h1]; exact hj), h2]
  exact sum_congr rfl fun i _ => by rw [h4]

/-- C89: the product of a sparse operator by a scalar other than one has no value: whatever the size of the stack, it overflows. -/
theorem C89_scalar_fails [DecidableEq K] (depth : ℕ) {c : K} (hc : c ≠ 1) (m : Mat K) : scaleSparse depth c m = .recursionError := by
  induction depth with
  | zero => rfl
  | succ n ih => simp [scaleSparse, hc, ih]

/-- The matrix [[1, 0, 2], [0, 3, 0]] in the formats. -/
def asCsr : Mat ℤ := ⟨2, 3, .csr (fun i => [0, 2, 3].getD i 0) (fun i => [0, 2, 1].getD i 0) (fun i => [1, 2, 3].getD i 0)⟩
def asCsc : Mat ℤ := ⟨2, 3, .csc (fun i => [0, 1, 2, 3].getD i 0) (fun i => [0, 1, 0].getD i 0) (fun i => [1, 3, 2].getD i 0)⟩
def asCoo : Mat ℤ := ⟨2, 3, .coo 4 (fun i => [1, 0, 0, 0].getD i 0) (fun i => [1, 0, 2, 2].getD i 0) (fun i => [3, 1, 1, 1].getD i 0)⟩
def asBsr : Mat ℤ := ⟨2, 3, .bsr 2 1 (fun i => [0, 3].getD i 0) (fun i => [0, 1, 2].getD i 0) (fun i => [1, 0, 0, 3, 2, 0].getD i 0)⟩
def asDia : Mat ℤ := ⟨2, 3, .dia 2 3 (fun i => [0, 2].getD i 0) (fun i => [1, 3, 7, 8, 9, 2].getD i 0)⟩
def asDok : Mat ℤ := ⟨2, 3, .dok [((0, 2), 2), ((1, 1), 3), ((0, 0), 1)]⟩

/-- The elements and the products. -/
example : ∀ m ∈ [asCsr, asCsc, asCoo, asBsr, asDia, asDok], ((List.range 2).map fun i => (List.range 3).map (entry m i)) = [[1, 0, 2], [0, 3, 0]] ∧
    ((direct m .iadd (fun j => [1, 10, 100].getD j 0) (fun i => [1000, 2000].getD i 0)).map fun z => [z 0, z 1]) = some [1201, 2030] := by
  intro m hm
  simp only [List.mem_cons, List.not_mem_nil, or_false] at hm
  rcases hm with rfl | rfl | rfl | rfl | rfl | rfl <;> decide +kernel

/-- The hypotheses hold. -/
example : asCsr.Valid ∧ asBsr.Valid ∧ asDok.Valid ∧ asCsr.transpose.isSome := by
  refine ⟨?_, ?_, ?_, by decide⟩
  · intro i hi k h1 h2
    simp only [asCsr] at hi
    have : k < 3 := by
      have : i = 0 ∨ i = 1 := by omega
      rcases this with rfl | rfl <;> simp at h2 <;> omega
    have : k = 0 ∨ k = 1 ∨ k = 2 := by omega
    rcases this with rfl | rfl | rfl <;> simp [asCsr]
  · refine ⟨by decide, by decide, by decide, by decide, ?_⟩
    intro i hi k h1 h2
    simp only [asBsr] at hi
    have : i = 0 := by omega
    subst this
    simp at h2
    have : k = 0 ∨ k = 1 ∨ k = 2 := by omega
    rcases this with rfl | rfl | rfl <;> simp [asBsr]
  · show ∀ e ∈ [((0, 2), 2), ((1, 1), 3), ((0, 0), (1 : ℤ))], e.1.1 < 2 ∧ e.1.2 < 3
    decide

end Verif.Sparse
