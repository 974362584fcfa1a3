import Verif.Flags.MergeProps
import Mathlib.Data.Fintype.BigOperators
import Mathlib.Algebra.BigOperators.Fin

/-!
# C131: the flags of block operators

The flags that the block diagonal, block column and block row operators are given, and their meaning for the functions that they compute.
-/

namespace Verif.Flags.Blocks

open Verif.Flags

/-- The algebraic flags of a block diagonal operator: `BlockDiagonalOperator._merge_flags`, src/pyoperators/core.py:3725-3735, and
`BlockOperator._merge_flags`, 3363-3367, followed by the closure at the construction.  The flag square is later set from the shapes, if they are known. -/
def diagonalFlags (ops : List OpFlags) : OpFlags :=
  { flags := initFlags (commonComplex ops)
      { linear := ops.all (fun o => o.flags.linear), real := ops.all (fun o => o.flags.real),
        symmetric := ops.all (fun o => o.flags.symmetric), hermitian := ops.all (fun o => o.flags.hermitian) }
    square := ops.all (fun o => o.square)
    complexDtype := commonComplex ops }

/-- The algebraic flags of a block column operator: src/pyoperators/core.py:3363-3367. -/
def columnFlags (ops : List OpFlags) : OpFlags :=
  { flags := initFlags (commonComplex ops) { linear := ops.all (fun o => o.flags.linear), real := ops.all (fun o => o.flags.real) }
    complexDtype := commonComplex ops }

/-- The algebraic flags of a block row operator whose blocks are added: those of `BlockOperator._merge_flags`, which are replaced by the flags that are given to the constructor
(3176-3179), that is to say linear (3853-3855): src/pyoperators/core.py:3833-3867. -/
def rowFlags (ops : List OpFlags) : OpFlags :=
  { flags := initFlags (commonComplex ops) { linear := true, real := ops.all (fun o => o.flags.real) }
    complexDtype := commonComplex ops }

/-- What a block diagonal operator computes: src/pyoperators/core.py:3694-3722.  `ein` and `eout` give the position, in the input and in the output, of the elements of
the blocks; they depend on the axes of the partitions. -/
def diagonal {k N M : ℕ} {n m : Fin k → ℕ} (ein : (Σ i, Fin (n i)) ≃ Fin N) (eout : (Σ i, Fin (m i)) ≃ Fin M) (f : ∀ i, Fn (n i) (m i)) : Fn N M :=
  fun x b => f (eout.symm b).1 (fun j => x (ein ⟨(eout.symm b).1, j⟩)) (eout.symm b).2

/-- What a block column operator computes: src/pyoperators/core.py:3786-3804. -/
def column {k N M : ℕ} {m : Fin k → ℕ} (eout : (Σ i, Fin (m i)) ≃ Fin M) (f : ∀ i, Fn N (m i)) : Fn N M :=
  fun x b => f (eout.symm b).1 x (eout.symm b).2

/-- What a block row operator computes: src/pyoperators/core.py:3869-3898. -/
def row {k N M : ℕ} {n : Fin k → ℕ} (ein : (Σ i, Fin (n i)) ≃ Fin N) (f : ∀ i, Fn (n i) M) : Fn N M :=
  fun x b => ∑ i, f i (fun j => x (ein ⟨i, j⟩)) b

theorem all_ofFn {k : ℕ} (op : Fin k → OpFlags) (p : OpFlags → Bool) : (List.ofFn op).all p = true ↔ ∀ i, p (op i) = true := by
  simp [List.all_eq_true, List.mem_ofFn]

theorem all_real {k : ℕ} {op : Fin k → OpFlags} (hc : ∀ i, (op i).Constructed)
    (h : ((List.ofFn op).all (fun o => o.flags.real) || !commonComplex (List.ofFn op)) = true) (i : Fin k) : (op i).flags.real = true := by
  rw [Bool.or_eq_true] at h
  rcases h with h | h
  · exact (all_ofFn op _).1 h i
  · apply hc i
    simp only [commonComplex, Bool.not_eq_true', List.any_eq_false, List.mem_ofFn] at h
    simpa using h (op i) ⟨i, rfl⟩

theorem linear_of_hermitian {n : ℕ} (f : Fn n n)
    (h : ∀ x y : Fin n → ℂ, ∑ i, star (f x i) * y i = ∑ i, star (x i) * f y i) : IsLinearMap ℂ f := by
  have key : ∀ x j, f x j = ∑ i, x i * star (f (Pi.single j 1) i) := by
    intro x j
    have := h x (Pi.single j 1)
    simp only [Pi.single_apply, mul_ite, mul_one, mul_zero, Finset.sum_ite_eq', Finset.mem_univ, if_true] at this
    have := congrArg star this
    rw [star_star, star_sum] at this
    rw [this]
    exact Finset.sum_congr rfl fun i _ => by rw [star_mul', star_star]
  refine ⟨fun x y => ?_, fun a x => ?_⟩
  · funext j
    rw [Pi.add_apply, key, key x, key y, ← Finset.sum_add_distrib]
    exact Finset.sum_congr rfl (fun i _ => by rw [Pi.add_apply]; ring)
  · funext j
    rw [Pi.smul_apply, key, key x, smul_eq_mul, Finset.mul_sum]
    exact Finset.sum_congr rfl (fun i _ => by rw [Pi.smul_apply, smul_eq_mul]; ring)

theorem init_four (c linear real symmetric hermitian : Bool) :
    initFlags c { linear := linear, real := real, symmetric := symmetric, hermitian := hermitian } =
      { linear := linear || symmetric || hermitian, real := real || !c, symmetric := symmetric || ((real || !c) && hermitian),
        hermitian := hermitian || ((real || !c) && symmetric) } := by
  cases c <;> cases linear <;> cases real <;> cases symmetric <;> cases hermitian <;> rfl

section Diagonal

variable {k N M : ℕ} {n m : Fin k → ℕ} (ein : (Σ i, Fin (n i)) ≃ Fin N) (eout : (Σ i, Fin (m i)) ≃ Fin M) (f : ∀ i, Fn (n i) (m i))

theorem diagonal_apply (x : Fin N → ℂ) (i : Fin k) (j : Fin (m i)) : diagonal ein eout f x (eout ⟨i, j⟩) = f i (fun l => x (ein ⟨i, l⟩)) j := by
  unfold diagonal
  rw [Equiv.symm_apply_apply]

theorem diagonal_linear (h : ∀ i, IsLinearMap ℂ (f i)) : IsLinearMap ℂ (diagonal ein eout f) := by
  refine ⟨fun x y => ?_, fun a x => ?_⟩
  · funext b
    exact congrFun ((h _).map_add _ _) _
  · funext b
    exact congrFun ((h _).map_smul a _) _

theorem diagonal_real (h : ∀ i x, f i (fun j => star (x j)) = fun j => star (f i x j)) (x : Fin N → ℂ) :
    diagonal ein eout f (fun j => star (x j)) = fun b => star (diagonal ein eout f x b) := by
  funext b
  exact congrFun (h _ _) _

include ein eout in
theorem diagonal_size (h : ∀ i, n i = m i) : N = M := by
  have h1 := Fintype.card_congr ein
  have h2 := Fintype.card_congr eout
  simp only [Fintype.card_sigma, Fintype.card_fin] at h1 h2
  rw [← h1, ← h2]
  exact Finset.sum_congr rfl fun i _ => h i

theorem diagonal_symmetric (same : ∀ i (h : n i = m i) (j : Fin (n i)), (ein ⟨i, j⟩).val = (eout ⟨i, Fin.cast h j⟩).val)
    (h : ∀ i, ∃ h : n i = m i, ∀ x y : Fin (n i) → ℂ, ∑ j, f i x (Fin.cast h j) * y j = ∑ j, x j * f i y (Fin.cast h j)) :
    ∃ h : N = M, ∀ x y : Fin N → ℂ, ∑ j, diagonal ein eout f x (Fin.cast h j) * y j = ∑ j, x j * diagonal ein eout f y (Fin.cast h j) := by
  have hs : ∀ i, n i = m i := fun i => (h i).1
  have hN := diagonal_size ein eout hs
  refine ⟨hN, fun x y => ?_⟩
  have hc : ∀ i j, Fin.cast hN (ein ⟨i, j⟩) = eout ⟨i, Fin.cast (hs i) j⟩ := fun i j => Fin.ext (same i (hs i) j)
  rw [← Equiv.sum_comp ein, ← Equiv.sum_comp ein, Fintype.sum_sigma, Fintype.sum_sigma]
  refine Finset.sum_congr rfl fun i _ => ?_
  simp only [hc, diagonal_apply]
  exact (h i).2 _ _

theorem diagonal_hermitian (same : ∀ i (h : n i = m i) (j : Fin (n i)), (ein ⟨i, j⟩).val = (eout ⟨i, Fin.cast h j⟩).val)
    (h : ∀ i, ∃ h : n i = m i, ∀ x y : Fin (n i) → ℂ, ∑ j, star (f i x (Fin.cast h j)) * y j = ∑ j, star (x j) * f i y (Fin.cast h j)) :
    ∃ h : N = M, ∀ x y : Fin N → ℂ, ∑ j, star (diagonal ein eout f x (Fin.cast h j)) * y j = ∑ j, star (x j) * diagonal ein eout f y (Fin.cast h j) := by
  have hs : ∀ i, n i = m i := fun i => (h i).1
  have hN := diagonal_size ein eout hs
  refine ⟨hN, fun x y => ?_⟩
  have hc : ∀ i j, Fin.cast hN (ein ⟨i, j⟩) = eout ⟨i, Fin.cast (hs i) j⟩ := fun i j => Fin.ext (same i (hs i) j)
  rw [← Equiv.sum_comp ein, ← Equiv.sum_comp ein, Fintype.sum_sigma, Fintype.sum_sigma]
  refine Finset.sum_congr rfl fun i _ => ?_
  simp only [hc, diagonal_apply]
  exact (h i).2 _ _

/-- **C131, partial.** If each block satisfies its flags and if the elements of the blocks have the same positions in the input and in the output, a block
diagonal operator satisfies all the flags that it is given.  Missing from the full property: the partitions of the input and of the output along different axes
(`C131_diagonal_fails`). -/
theorem C131_diagonal_partial (op : Fin k → OpFlags) (hf : ∀ i, FnTrue (op i) (f i)) (hc : ∀ i, (op i).Constructed)
    (same : ∀ i (h : n i = m i) (j : Fin (n i)), (ein ⟨i, j⟩).val = (eout ⟨i, Fin.cast h j⟩).val) :
    FnTrue (diagonalFlags (List.ofFn op)) (diagonal ein eout f) ∧ (diagonalFlags (List.ofFn op)).Constructed := by
  have e : (diagonalFlags (List.ofFn op)).flags = _ := init_four _ _ _ _ _
  have hsym : (List.ofFn op).all (fun o => o.flags.symmetric) = true → ∃ h : N = M, ∀ x y : Fin N → ℂ,
      ∑ j, diagonal ein eout f x (Fin.cast h j) * y j = ∑ j, x j * diagonal ein eout f y (Fin.cast h j) := fun h =>
    diagonal_symmetric ein eout f same fun i => (hf i).symmetric ((all_ofFn op _).1 h i)
  have hher : (List.ofFn op).all (fun o => o.flags.hermitian) = true → ∃ h : N = M, ∀ x y : Fin N → ℂ,
      ∑ j, star (diagonal ein eout f x (Fin.cast h j)) * y j = ∑ j, star (x j) * diagonal ein eout f y (Fin.cast h j) := fun h =>
    diagonal_hermitian ein eout f same fun i => (hf i).hermitian ((all_ofFn op _).1 h i)
  have hreal : ((List.ofFn op).all (fun o => o.flags.real) || !commonComplex (List.ofFn op)) = true → ∀ x : Fin N → ℂ,
      diagonal ein eout f (fun j => star (x j)) = fun b => star (diagonal ein eout f x b) := fun h =>
    diagonal_real ein eout f fun i => (hf i).real (all_real hc h i)
  refine ⟨⟨?_, ?_, ?_, ?_, ?_, ?_, ?_, ?_, ?_⟩, ?_⟩
  · rw [e]
    intro h
    simp only [Bool.or_eq_true] at h
    rcases h with (h | h) | h
    · exact diagonal_linear ein eout f fun i => (hf i).linear ((all_ofFn op _).1 h i)
    · obtain ⟨rfl, h⟩ := hsym h
      exact linear_of_symmetric _ h
    · obtain ⟨rfl, h⟩ := hher h
      exact linear_of_hermitian _ h
  · rw [e]
    exact hreal
  · intro h
    exact diagonal_size ein eout fun i => (hf i).square ((all_ofFn op _).1 h i)
  · rw [e]
    intro h
    rw [Bool.or_eq_true, Bool.and_eq_true] at h
    rcases h with h | ⟨hr, h⟩
    · exact hsym h
    · obtain ⟨hN, h⟩ := hher h
      refine ⟨hN, fun x y => ?_⟩
      have h1 := h (fun j => star (x j)) y
      rw [hreal hr] at h1
      simpa only [star_star] using h1
  · rw [e]
    intro h
    rw [Bool.or_eq_true, Bool.and_eq_true] at h
    rcases h with h | ⟨hr, h⟩
    · exact hher h
    · obtain ⟨hN, h⟩ := hsym h
      refine ⟨hN, fun x y => ?_⟩
      have h1 := h (fun j => star (x j)) y
      rw [hreal hr] at h1
      exact h1
  all_goals first | (rw [e]; intro hf; cases hf) | skip
  intro hd
  rw [e]
  have hd : commonComplex (List.ofFn op) = false := hd
  simp [hd]

end Diagonal

/-- **C131, partial.** If each block satisfies its flags, a block column operator satisfies all the flags that it is given. -/
theorem C131_column_partial {k N M : ℕ} {m : Fin k → ℕ} (eout : (Σ i, Fin (m i)) ≃ Fin M) (f : ∀ i, Fn N (m i)) (op : Fin k → OpFlags)
    (hf : ∀ i, FnTrue (op i) (f i)) (hc : ∀ i, (op i).Constructed) :
    FnTrue (columnFlags (List.ofFn op)) (column eout f) ∧ (columnFlags (List.ofFn op)).Constructed := by
  have e : (columnFlags (List.ofFn op)).flags = _ := init_linear_real _ _ _
  refine ⟨⟨?_, ?_, ?_, ?_, ?_, ?_, ?_, ?_, ?_⟩, ?_⟩
  · rw [e]
    intro h
    have h := fun i => (hf i).linear ((all_ofFn op _).1 h i)
    refine ⟨fun x y => ?_, fun a x => ?_⟩
    · funext b
      exact congrFun ((h _).map_add _ _) _
    · funext b
      exact congrFun ((h _).map_smul a _) _
  · rw [e]
    intro h x
    funext b
    exact congrFun ((hf _).real (all_real hc h _) x) _
  · intro h
    cases h
  all_goals first | (rw [e]; intro hf; cases hf) | skip
  intro hd
  rw [e]
  have hd : commonComplex (List.ofFn op) = false := hd
  simp [hd]

/-- **C131, partial.** If each block satisfies its flags and is linear, a block row operator satisfies all the flags that it is given.  Missing from the full
property: the blocks that are not linear (`C131_row_fails`). -/
theorem C131_row_partial {k N M : ℕ} {n : Fin k → ℕ} (ein : (Σ i, Fin (n i)) ≃ Fin N) (f : ∀ i, Fn (n i) M) (op : Fin k → OpFlags)
    (hf : ∀ i, FnTrue (op i) (f i)) (hc : ∀ i, (op i).Constructed) (hl : ∀ i, (op i).flags.linear = true) :
    FnTrue (rowFlags (List.ofFn op)) (row ein f) ∧ (rowFlags (List.ofFn op)).Constructed := by
  have e : (rowFlags (List.ofFn op)).flags = _ := init_linear_real _ _ _
  refine ⟨⟨?_, ?_, ?_, ?_, ?_, ?_, ?_, ?_, ?_⟩, ?_⟩
  · intro _
    have h := fun i => (hf i).linear (hl i)
    refine ⟨fun x y => ?_, fun a x => ?_⟩
    · funext b
      unfold row
      rw [Pi.add_apply, ← Finset.sum_add_distrib]
      exact Finset.sum_congr rfl fun i _ => congrFun ((h i).map_add _ _) b
    · funext b
      unfold row
      rw [Pi.smul_apply, smul_eq_mul, Finset.mul_sum]
      exact Finset.sum_congr rfl fun i _ => congrFun ((h i).map_smul a _) b
  · rw [e]
    intro h x
    funext b
    unfold row
    rw [star_sum]
    exact Finset.sum_congr rfl fun i _ => congrFun ((hf i).real (all_real hc h i) _) b
  · intro h
    cases h
  all_goals first | (rw [e]; intro hf; cases hf) | skip
  intro hd
  rw [e]
  have hd : commonComplex (List.ofFn op) = false := hd
  simp [hd]

/-- The positions of the elements of two blocks of one element. -/
def two : (Σ _ : Fin 2, Fin 1) ≃ Fin 2 where
  toFun p := p.1
  invFun i := ⟨i, 0⟩
  left_inv := by
    rintro ⟨i, j⟩
    rw [Subsingleton.elim j 0]
  right_inv _ := rfl

/-- The square of the elements of an array. -/
theorem square_true : FnTrue { flags := { real := true }, square := true, separable := true } (fun (x : Fin 1 → ℂ) i => x i ^ 2) := by
  refine ⟨?_, ?_, fun _ => rfl, ?_, ?_, ?_, ?_, ?_, ?_⟩
  · intro h; cases h
  · intro _ x
    funext i
    simp
  all_goals
    intro h
    cases h

/-- **C131 does not hold** for a block row operator whose blocks are not linear, such as squares: it is flagged linear and it is not. -/
theorem C131_row_fails : ∃ (op : Fin 2 → OpFlags) (f : Fin 2 → Fn 1 1), (∀ i, FnTrue (op i) (f i) ∧ (op i).Constructed) ∧
    (rowFlags (List.ofFn op)).flags.linear = true ∧ ¬ IsLinearMap ℂ (row two f) := by
  refine ⟨fun _ => { flags := { real := true }, square := true, separable := true }, fun _ x i => x i ^ 2, fun _ => ⟨square_true, fun _ => rfl⟩,
    by decide, ?_⟩
  intro h
  have := congrFun (h.map_smul 2 (fun _ => 1)) 0
  simp [row] at this
  norm_num at this

/-- The identity. -/
theorem identity_true (n : ℕ) : FnTrue { flags := { linear := true, real := true, symmetric := true, hermitian := true }, square := true }
    (fun x : Fin n → ℂ => x) := by
  refine ⟨fun _ => ⟨fun _ _ => rfl, fun _ _ => rfl⟩, fun _ _ => rfl, fun _ => rfl, fun _ => ⟨rfl, fun _ _ => rfl⟩, fun _ => ⟨rfl, fun _ _ => rfl⟩, ?_, ?_, ?_, ?_⟩
  all_goals
    intro h
    cases h

/-- The positions of the elements of three blocks of shape (2, 1), partitioned along the first axis: the shape is (6, 1). -/
def along0 : (Σ _ : Fin 3, Fin 2) ≃ Fin 6 where
  toFun p := ⟨2 * p.1.val + p.2.val, by omega⟩
  invFun b := ⟨⟨b.val / 2, by omega⟩, ⟨b.val % 2, by omega⟩⟩
  left_inv := by decide
  right_inv := by decide

/-- The positions of the elements of three blocks of shape (2, 1), partitioned along the second axis: the shape is (2, 3). -/
def along1 : (Σ _ : Fin 3, Fin 2) ≃ Fin 6 where
  toFun p := ⟨3 * p.2.val + p.1.val, by omega⟩
  invFun b := ⟨⟨b.val % 3, by omega⟩, ⟨b.val / 3, by omega⟩⟩
  left_inv := by decide
  right_inv := by decide

/-- **C131 does not hold** for a block diagonal operator whose input and output are partitioned along different axes: if the blocks are the identity, it is flagged
symmetric, and it is not. -/
theorem C131_diagonal_fails : ∃ (op : Fin 3 → OpFlags) (f : Fin 3 → Fn 2 2), (∀ i, FnTrue (op i) (f i) ∧ (op i).Constructed) ∧
    (diagonalFlags (List.ofFn op)).flags.symmetric = true ∧
    ¬ ∀ x y : Fin 6 → ℂ, ∑ j, diagonal along0 along1 f x j * y j = ∑ j, x j * diagonal along0 along1 f y j := by
  refine ⟨fun _ => { flags := { linear := true, real := true, symmetric := true, hermitian := true }, square := true }, fun _ x => x,
    fun _ => ⟨identity_true 2, fun _ => rfl⟩, by decide, ?_⟩
  intro h
  have := h (Pi.single 1 1) (Pi.single 3 1)
  simp [diagonal, along0, along1, Fin.sum_univ_succ, Pi.single_apply] at this

/-- Two blocks of one element, in a block diagonal operator: the positions are the same in the input and in the output. -/
example : (∀ (i : Fin 2) (h : 1 = 1) (j : Fin 1), (two ⟨i, j⟩).val = (two ⟨i, Fin.cast h j⟩).val) ∧
    (diagonalFlags (List.ofFn fun _ : Fin 2 => { flags := { linear := true, real := true, symmetric := true, hermitian := true }, square := true })).flags.symmetric = true :=
  ⟨fun _ _ _ => rfl, by decide⟩

end Verif.Flags.Blocks
