import Verif.Block.Matrix

/- Property C23: block diagonal operators called in place, and examples. -/

namespace Verif.Block

open Verif.Shape

variable {R : Type}

theorem diagLoop_inplace [Zero R] (s : Shape) (x : Nat) (ops : List (Operand R)) (idxs : List (List Index)) (oks : List Bool)
    (h1 : ops.length = idxs.length) (h3 : ops.length = oks.length)
    (hp : idxs.Pairwise (fun i j => ∀ l, inShape (viewShape (expand s.length j) s) l = true →
      unplace (expand s.length i) (place (expand s.length j) l) = none))
    (hc : ∀ (i : Nat) (op : Operand R) (ok : Bool), ops[i]? = some op → oks[i]? = some ok → (op.needIn && !ok) = false)
    (x0 : Arr R) (m : Mem R) (hm : ∀ idx ∈ idxs, view s idx (m x) = view s idx x0) :
    diagLoop s s x x ops idxs idxs oks m x = scatter s idxs (results s x0 ops idxs) (m x) := by
  induction ops generalizing idxs oks m with
  | nil =>
    cases idxs with
    | nil => rfl
    | cons _ _ => simp at h1
  | cons op ops ih =>
    cases idxs with
    | nil => simp at h1
    | cons idx idxs =>
      cases oks with
      | nil => simp at h3
      | cons ok oks =>
        rw [List.pairwise_cons] at hp
        simp only [diagLoop]
        have hstep : diagStep s s x x op idx idx ok m =
            m.set x (write s idx (op.fn (viewShape (expand s.length idx) s) (view s idx x0)) (m x)) := by
          unfold diagStep
          simp only [hc 0 op ok rfl rfl, Bool.false_eq_true, if_false, hm idx (by simp)]
        rw [hstep, ih idxs oks (by simpa using h1) (by simpa using h3) hp.2
          (fun i op ok ho hk => hc (i + 1) op ok (by simpa using ho) (by simpa using hk))]
        · simp [Mem.set, results, scatter]
        · intro jdx hj
          rw [← hm jdx (by simp [hj])]
          funext l
          simp only [view, clip, Mem.set, if_true]
          split
          · rename_i hl
            simp only [write, hp.1 jdx hj l hl]
          · rfl

theorem Tiles.pairwise {s : Shape} {idxs : List (List Index)} (ht : Tiles s idxs) :
    idxs.Pairwise (fun i j => ∀ l, inShape (viewShape (expand s.length j) s) l = true →
      unplace (expand s.length i) (place (expand s.length j) l) = none) := by
  rw [List.pairwise_iff_getElem]
  intro i j hi hj hij l hl
  cases hu : unplace (expand s.length idxs[i]) (place (expand s.length idxs[j]) l) with
  | none => rfl
  | some l' =>
    have gi : idxs[i]? = some idxs[i] := List.getElem?_eq_getElem hi
    have gj : idxs[j]? = some idxs[j] := List.getElem?_eq_getElem hj
    obtain ⟨c1, c2⟩ := (ht.found i _ gi _ (ht.inside j _ gj l hl) l').mp hu
    have := (ht.once i j _ _ gi gj l' l c1 hl c2).1
    omega

/-- C23 (partial).  A block diagonal operator with the same partition of its input and output, called in place, gives the same
values as when it is called with another output, if the blocks have no requirement on their input that is not met by
its parts.  Missing: the parts of the input that are copied (C23_inplace_fails). -/
theorem C23_inplace_partial [Zero R] (b : BlockOp R) (operation : R → R → R) (s : Shape) (a : Axis) (hai : b.axisin = some a)
    (hao : b.axisout = some a) (hp : b.partitionin = b.partitionout) (hw : WellFormed b s s) (x y tmp : Nat) (hxy : x ≠ y)
    (oks : List Bool) (ho : oks.length = b.operands.length)
    (hc : ∀ (i : Nat) (op : Operand R) (ok : Bool), b.operands[i]? = some op → oks[i]? = some ok → (op.needIn && !ok) = false)
    (m : Mem R) : ∃ m1 m2, b.direct operation s s x x tmp oks m = some m1 ∧ b.direct operation s s x y tmp oks m = some m2 ∧
      ∀ k, inShape s k = true → m1 x k = m2 y k := by
  obtain ⟨hl, hf⟩ := hw.lenin a hai
  have ht := C22_tiles _ _ _ hf
  have hlen := (C22_parts _ _ _ hf).1
  simp only [BlockOp.direct, hai, hao, ← hp]
  refine ⟨_, _, rfl, rfl, ?_⟩
  intro k hk
  rw [diagLoop_inplace s x b.operands _ oks (by omega) (by omega) ht.pairwise hc (m x) m (fun _ _ => rfl),
    (diagLoop_value s s x y hxy b.operands _ _ oks (by omega) (by omega) (by omega) ht.each (m x) m (fun _ _ => rfl)).1]
  obtain ⟨i, idx, l, hi, hin, rfl⟩ := ht.cover k hk
  have hilt : i < b.operands.length := by
    have := (List.getElem?_eq_some_iff.mp hi).1; omega
  obtain ⟨op, hop⟩ : ∃ op, b.operands[i]? = some op := ⟨_, List.getElem?_eq_getElem hilt⟩
  have hr := results_get s (m x) b.operands (getSlices b.partitionin a) i op hop (by omega)
  rw [scatter_get s _ _ _ ht i idx _ hi hr l hin, scatter_get s _ _ _ ht i idx _ hi hr l hin]

/-! ### Examples -/

/-- An operand that doubles its input. -/
def doubling (need : Bool) : Operand Int := { fn := fun _ x k => 2 * x k, needIn := need }

/-- A block diagonal operator. -/
def sampleDiag (need : Bool) : BlockOp Int :=
  { operands := [doubling need, doubling need], partitionin := [2, 3], partitionout := [2, 3], axisin := some (.axis (-1)),
    axisout := some (.axis (-1)) }

/-- Hypotheses of C23_matrix (and C23_transpose): a block diagonal operator along the last axis of an array of shape (4, 5). -/
example : WellFormed (sampleDiag true) [4, 5] [4, 5] ∧
    IsMatrices (sampleDiag true) [4, 5] [4, 5] (fun _ k l => if k = l then 2 else 0) ∧
    IsBlockMatrix (sampleDiag true) [4, 5] [4, 5] (fun _ k l => if k = l then 2 else 0) (fun k l => if k = l then 2 else 0) := by
  have hf : Fits [2, 3] (.axis (-1)) [4, 5] := ⟨by decide, by decide, rfl, by simp⟩
  refine ⟨⟨by simp [sampleDiag], by simp [sampleDiag], ?_, ?_⟩, ?_, ?_⟩
  · rintro a ha; cases ha; exact ⟨rfl, hf⟩
  · rintro a ha; cases ha; exact ⟨rfl, hf⟩
  · intro i op hop x l hl
    have : op = doubling true := by
      have := List.mem_of_getElem? hop
      simpa [sampleDiag] using this
    subst this
    have hmem : l ∈ indices ((sampleDiag true).inputShape [4, 5] i) := (mem_indices _ _).mpr hl
    rw [Finset.sum_eq_single_of_mem l hmem]
    · simp [doubling]
    · intro l' _ hne
      have e : ¬ l = l' := fun e => hne e.symm
      simp [e]
  · have ht := C22_tiles _ _ _ hf
    intro i j hi hj l hl l' hl'
    have hget : ∀ i, i < 2 → (getSlices [2, 3] (.axis (-1)))[i]? = some ((getSlices [2, 3] (.axis (-1))).getD i []) := by
      intro i hi
      exact getD_getSlices hf (by simpa using hi)
    show (if _ = _ then (2 : Int) else 0) = if i = j then (if l = l' then 2 else 0) else 0
    by_cases h : i = j
    · subst h
      rw [if_pos rfl]
      by_cases hll : l = l'
      · subst hll
        rw [if_pos rfl]
        exact if_pos rfl
      · rw [if_neg hll, if_neg]
        intro e
        exact hll (ht.once i i _ _ (hget i hi) (hget i hi) l l' hl hl' e).2
    · rw [if_neg h, if_neg]
      intro e
      exact h (ht.once i j _ _ (hget i hi) (hget j hj) l l' hl hl' e).1

/-- A block row operator along a new axis. -/
def sampleRow : BlockOp Int :=
  { operands := [doubling false, doubling false]
    partitionin := [1, 1]
    partitionout := []
    axisin := some (.newAxis 0)
    axisout := none }

/-- The same for a block row. -/
example : WellFormed sampleRow [2, 2] [2] ∧ ∃ m', sampleRow.direct (· + ·) [2, 2] [2] 0 1 2 [true, true] (fun _ k => k.sum) = some m' ∧
    m' 1 [0] = 2 ∧ m' 1 [1] = 6 := by
  refine ⟨⟨by simp [sampleRow], by simp [sampleRow], ?_, ?_⟩, _, rfl, rfl, rfl⟩
  · rintro a ha; cases ha; exact ⟨rfl, ⟨by decide, by decide, rfl, by simp [sampleRow]⟩⟩
  · rintro a ha; cases ha

/-- C23 fails for an operator called in place, if a block requires a contiguous or an aligned input and its part of the input is not:
the copy of the part of the input is copied back after the result has been written.  The result of this block is lost. -/
theorem C23_inplace_fails : ∃ m1 m2,
    (sampleDiag true).direct (· + ·) [5] [5] 0 0 2 [true, false] (fun _ k => k.sum + 1) = some m1 ∧
    (sampleDiag true).direct (· + ·) [5] [5] 0 1 2 [true, false] (fun _ k => k.sum + 1) = some m2 ∧
    WellFormed (sampleDiag true) [5] [5] ∧
    m2 1 [3] = 8 ∧ m1 0 [3] = 4 ∧ ∀ k, inShape [5] k = true → 2 ≤ k.sum → m1 0 k = k.sum + 1 := by
  have hf : Fits [2, 3] (.axis (-1)) [5] := ⟨by decide, by decide, rfl, by simp⟩
  refine ⟨_, _, rfl, rfl, ⟨by simp [sampleDiag], by simp [sampleDiag], ?_, ?_⟩, rfl, rfl, ?_⟩
  · rintro a ha; cases ha; exact ⟨rfl, hf⟩
  · rintro a ha; cases ha; exact ⟨rfl, hf⟩
  · intro k hk h2
    have : ∀ k ∈ indices [5], 2 ≤ k.sum → diagLoop [5] [5] 0 0 (sampleDiag true).operands
        (getSlices (sampleDiag true).partitionin (.axis (-1))) (getSlices (sampleDiag true).partitionout (.axis (-1)))
        [true, false] (fun _ k => (k.sum : Int) + 1) 0 k = k.sum + 1 := by decide
    exact this k ((mem_indices _ _).mpr hk) h2

end Verif.Block
