import Mathlib.Data.List.Basic

/-
Model of the arrays that the block operators hand to their operands: src/pyoperators/core.py:3711-3722 (block diagonal), 3796-3801 (block
column) and 3880-3898 (block row), and property C61.
-/

namespace Verif.Block

/-- Alignment and contiguity of an array. -/
structure Layout where
  aligned : Bool
  contiguous : Bool
deriving DecidableEq, Repr

/-- The flags aligned_input, contiguous_input, aligned_output, contiguous_output and update_output of an operand. -/
structure Needs where
  input : Layout
  output : Layout
  update : Bool
deriving DecidableEq, Repr

/-- The array has the required layout. -/
def Layout.meets (a need : Layout) : Prop := (need.aligned = true → a.aligned = true) ∧ (need.contiguous = true → a.contiguous = true)

/-- `_pool.copy_if`: src/pyoperators/memory.py:158-178.  The buffers of the pool are taken to be aligned and contiguous (C08). -/
def copyIf (need a : Layout) : Layout :=
  if (need.aligned && !a.aligned) || (need.contiguous && !a.contiguous) then ⟨true, true⟩ else a

/-- The input and output given to the operands of a block diagonal operator. -/
def diagGiven : List Needs → List Layout → List Layout → List (Layout × Layout)
  | n :: ns, i :: is, o :: os => (copyIf n.input i, copyIf n.output o) :: diagGiven ns is os
  | _, _, _ => []

/-- The same for a block column: the input is the one of the block column. -/
def colGiven (input : Layout) : List Needs → List Layout → List (Layout × Layout)
  | n :: ns, o :: os => (input, copyIf n.output o) :: colGiven input ns os
  | _, _ => []

/-- The same for a block row: the output is the one of the block row, or the temporary buffer for the operands that are not the first one and
that do not update their output. -/
def rowGiven (first : Bool) (output buffer : Layout) : List Needs → List Layout → List (Layout × Layout)
  | n :: ns, i :: is =>
    (copyIf n.input i, if first || n.update then output else buffer) :: rowGiven false output buffer ns is
  | _, _ => []

/-- All the operands are given arrays that meet their requirements. -/
def AllMet (ns : List Needs) (given : List (Layout × Layout)) : Prop :=
  ∀ (i : Nat) (n : Needs) (g : Layout × Layout), ns[i]? = some n → given[i]? = some g → g.1.meets n.input ∧ g.2.meets n.output

theorem copyIf_meets (need a : Layout) : (copyIf need a).meets need := by
  obtain ⟨na, nc⟩ := need
  obtain ⟨aa, ac⟩ := a
  cases na <;> cases nc <;> cases aa <;> cases ac <;> simp [copyIf, Layout.meets]

/-- C61 (partial).  The operands of a block diagonal operator are given arrays that meet their requirements.  Missing: the block
columns and the block rows (C61_column_fails, C61_row_fails). -/
theorem C61_diagonal_partial (ns : List Needs) (is os : List Layout) : AllMet ns (diagGiven ns is os) := by
  induction ns generalizing is os with
  | nil => intro i n g h; simp at h
  | cons n ns ih =>
    cases is with
    | nil => intro i m g _ h; simp [diagGiven] at h
    | cons a is =>
      cases os with
      | nil => intro i m g _ h; simp [diagGiven] at h
      | cons o os =>
        intro i m g h1 h2
        cases i with
        | zero =>
          simp only [diagGiven, List.getElem?_cons_zero, Option.some.injEq] at h1 h2
          subst h1; subst h2
          exact ⟨copyIf_meets _ _, copyIf_meets _ _⟩
        | succ i => exact ih is os i m g (by simpa using h1) (by simpa [diagGiven] using h2)

/-- C61 (partial).  The operands of a block column are given arrays that meet their requirements if its input meets the ones of all its
operands. -/
theorem C61_column_partial (input : Layout) (ns : List Needs) (os : List Layout) (h : ∀ n ∈ ns, input.meets n.input) :
    AllMet ns (colGiven input ns os) := by
  induction ns generalizing os with
  | nil => intro i n g h; simp at h
  | cons n ns ih =>
    cases os with
    | nil => intro i m g _ h; simp [colGiven] at h
    | cons o os =>
      intro i m g h1 h2
      cases i with
      | zero =>
        simp only [colGiven, List.getElem?_cons_zero, Option.some.injEq] at h1 h2
        subst h1; subst h2
        exact ⟨h _ (by simp), copyIf_meets _ _⟩
      | succ i => exact ih os (fun n hn => h n (by simp [hn])) i m g (by simpa using h1) (by simpa [colGiven] using h2)

/-- C61 (partial).  The operands of a block row are given arrays that meet their requirements if its output meets the ones of all its
operands and if the buffer is aligned and contiguous. -/
theorem C61_row_partial (first : Bool) (output : Layout) (ns : List Needs) (is : List Layout) (h : ∀ n ∈ ns, output.meets n.output) :
    AllMet ns (rowGiven first output ⟨true, true⟩ ns is) := by
  induction ns generalizing is first with
  | nil => intro i n g h; simp at h
  | cons n ns ih =>
    cases is with
    | nil => intro i m g _ h; simp [rowGiven] at h
    | cons a is =>
      intro i m g h1 h2
      cases i with
      | zero =>
        simp only [rowGiven, List.getElem?_cons_zero, Option.some.injEq] at h1 h2
        subst h1; subst h2
        refine ⟨copyIf_meets _ _, ?_⟩
        split
        · exact h _ (by simp)
        · exact ⟨fun _ => rfl, fun _ => rfl⟩
      | succ i => exact ih false is (fun n hn => h n (by simp [hn])) i m g (by simpa using h1) (by simpa [rowGiven] using h2)

/-- C61 fails for a block column: its operands are given its input, whatever their requirements. -/
theorem C61_column_fails : ∃ (input : Layout) (ns : List Needs) (os : List Layout), ns.length = os.length ∧ 1 < ns.length ∧
    ¬ AllMet ns (colGiven input ns os) := by
  refine ⟨⟨true, false⟩, [⟨⟨false, true⟩, ⟨false, true⟩, false⟩, ⟨⟨false, true⟩, ⟨false, true⟩, false⟩],
    [⟨true, true⟩, ⟨true, true⟩], rfl, by decide, ?_⟩
  intro h
  have := (h 0 _ _ rfl rfl).1.2 rfl
  exact absurd this (by decide)

/-- C61 fails for a block row: its first operand is given its output, whatever its requirements. -/
theorem C61_row_fails : ∃ (output : Layout) (ns : List Needs) (is : List Layout), ns.length = is.length ∧ 1 < ns.length ∧
    ¬ AllMet ns (rowGiven true output ⟨true, true⟩ ns is) := by
  refine ⟨⟨true, false⟩, [⟨⟨false, true⟩, ⟨false, true⟩, false⟩, ⟨⟨false, true⟩, ⟨false, true⟩, false⟩],
    [⟨true, true⟩, ⟨true, true⟩], rfl, by decide, ?_⟩
  intro h
  have := (h 0 _ _ rfl rfl).2.2 rfl
  exact absurd this (by decide)

/-- A block diagonal operator whose first block is given a copy of its input. -/
example : diagGiven [⟨⟨false, true⟩, ⟨false, false⟩, false⟩] [⟨false, false⟩] [⟨false, false⟩] = [(⟨true, true⟩, ⟨false, false⟩)] := by
  decide

/-- Hypotheses of C61_column_partial and C61_row_partial. -/
example : ∀ n ∈ [Needs.mk ⟨false, true⟩ ⟨false, true⟩ false], (Layout.mk false true).meets n.input ∧ (Layout.mk false true).meets n.output := by
  simp [Layout.meets]

end Verif.Block
