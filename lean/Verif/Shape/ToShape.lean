import Mathlib.Data.List.Basic
import Mathlib.Algebra.BigOperators.Group.List.Basic
import Mathlib.Tactic.Cases
import Mathlib.Tactic.Ring

/-
Model of the conversion of vectors into the input of an operator of implicit shape, in `op.matvec(v)`: src/pyoperators/core.py:566-573 (`Operator.matvec`), 4311-4346 (`DiagonalOperator.validatein` and `toshapein`),
3128-3156 (`BlockOperator.toshapein` and `toshapeout`, which are the same apart from the names), 1950-1951 (sums) and 2697-2698 (compositions).
-/

namespace Verif.ToShape

/-! ### Model -/

abbrev Shape := List Nat

/-- `v.reshape(pre + (-1,) + post)` for an array of s elements: the resulting shape; `none` is ValueError, which NumPy raises also if the known dimensions contain a zero. -/
def infer (pre post : Shape) (s : Nat) : Option Shape :=
  if pre.prod * post.prod = 0 then none
  else if s % (pre.prod * post.prod) = 0 then some (pre ++ s / (pre.prod * post.prod) :: post) else none

/-- The diagonal operators of implicit shape. -/
inductive Broadcast where
  | rightward
  | leftward
deriving DecidableEq

/-- `DiagonalOperator.validatein`: src/pyoperators/core.py:4311-4321 -/
def validatein (data : Shape) (b : Broadcast) (shape : Shape) : Bool :=
  if shape.length < data.length then false
  else
    let part := match b with
      | .rightward => shape.take data.length
      | .leftward => shape.drop (shape.length - data.length)
    (part.zip data).all fun p => !(p.2 != 1 && p.2 != p.1)

/-- `DiagonalOperator.toshapein`: src/pyoperators/core.py:4323-4346, for an operator that has no explicit shape; s is the size of the vector. -/
def toshapeDiagonal (data : Shape) (b : Broadcast) (s : Nat) : Option Shape :=
  if data.length < 1 then some [s]
  else if data.count 1 > 1 then none
  else if data.count 1 = 0 then
    match b with
    | .rightward => infer data [] s
    | .leftward => infer [] data s
  else infer (data.take (data.idxOf 1)) (data.drop (data.idxOf 1 + 1)) s

/-- An operand of a composite operator, which has no explicit shape: the shapes it accepts and its method toshapein. -/
structure Op where
  accepts : Shape → Bool
  toshape : Nat → Option Shape

/-- A diagonal operator of implicit shape. -/
def diagonal (data : Shape) (b : Broadcast) : Op := ⟨validatein data b, toshapeDiagonal data b⟩

/-- A homothety. -/
def homothety : Op := ⟨fun _ => true, fun s => some [s]⟩

/-- `BlockOperator.toshapein`: src/pyoperators/core.py:3128-3141, for an operator with a partition of its input along the axis `axisin` or `new_axisin`. -/
def toshapeBlock (partition : List (Option Nat)) (axis : Int) (s : Nat) : Option Shape :=
  if none ∈ partition ∨ ¬ (axis = 0 ∨ axis = -1) then none
  else
    let p := (partition.map (·.getD 0)).sum
    if s = p then some [s]
    else if axis = 0 then infer [p] [] s
    else infer [] [p] s

/-- The operators whose operands have the same input: block columns (partitionin is None: src/pyoperators/core.py:3131-3132) and sums (1950). -/
def toshapeFirst (ops : List Op) (s : Nat) : Option Shape :=
  match ops with
  | [] => none
  | o :: _ => o.toshape s

/-! ### Specification -/

/-- The data array can be broadcast: the shape begins (ends) with dimensions that are those of the data array, or any if the one of the data array is 1. -/
def Broadcasts (data : Shape) (b : Broadcast) (shape : Shape) : Prop :=
  ∃ part rest, shape = (match b with | .rightward => part ++ rest | .leftward => rest ++ part) ∧ List.Forall₂ (fun d n => d = 1 ∨ d = n) data part

/-- The input of blocks along the first (or last) axis: the dimension along the axis is the sum of those of the blocks, and the operands accept their part. -/
def BlockAccepts (ops : List (Op × Nat)) (axis : Int) (shape : Shape) : Prop :=
  (axis = 0 ∧ ∃ rest, shape = (ops.map (·.2)).sum :: rest ∧ ∀ o ∈ ops, o.1.accepts (o.2 :: rest) = true) ∨
  (axis = -1 ∧ ∃ rest, shape = rest ++ [(ops.map (·.2)).sum] ∧ ∀ o ∈ ops, o.1.accepts (rest ++ [o.2]) = true)

/-! ### Proofs -/

theorem zip_all (data : Shape) : ∀ part : Shape, part.length = data.length →
    (((part.zip data).all fun p => !(p.2 != 1 && p.2 != p.1)) = true ↔ List.Forall₂ (fun d n => d = 1 ∨ d = n) data part) := by
  induction data with
  | nil =>
    intro part h
    rw [List.length_eq_zero_iff.1 h]
    simp
  | cons d data ih =>
    intro part h
    cases part with
    | nil => simp at h
    | cons n part =>
      rw [List.zip_cons_cons, List.all_cons, Bool.and_eq_true, ih part (by simpa using h), List.forall₂_cons]
      refine and_congr_left fun _ => ?_
      by_cases h1 : d = 1 <;> by_cases h2 : d = n <;> simp [h1, h2]

theorem validatein_iff (data : Shape) (b : Broadcast) (shape : Shape) : validatein data b shape = true ↔ Broadcasts data b shape := by
  unfold validatein Broadcasts
  constructor
  · intro h
    split at h
    · cases h
    · rename_i hl
      cases b with
      | rightward =>
        refine ⟨shape.take data.length, shape.drop data.length, by simp, (zip_all data _ ?_).1 h⟩
        rw [List.length_take]; omega
      | leftward =>
        refine ⟨shape.drop (shape.length - data.length), shape.take (shape.length - data.length), by simp, (zip_all data _ ?_).1 h⟩
        rw [List.length_drop]; omega
  · rintro ⟨part, rest, e, h⟩
    have hl := h.length_eq
    cases b with
    | rightward =>
      simp only at e
      subst e
      rw [if_neg (by simp; omega)]
      have : (part ++ rest).take data.length = part := by rw [hl]; simp
      simp only [this]
      exact (zip_all data part hl.symm).2 h
    | leftward =>
      simp only at e
      subst e
      rw [if_neg (by simp; omega)]
      have : (rest ++ part).drop ((rest ++ part).length - data.length) = part := by
        rw [hl]; simp
      simp only [this]
      exact (zip_all data part hl.symm).2 h

theorem infer_some (pre post : Shape) (s : Nat) (t : Shape) (h : infer pre post s = some t) :
    t.prod = s ∧ ∃ n, t = pre ++ n :: post := by
  unfold infer at h
  split at h
  · cases h
  · split at h
    · rename_i hz hm
      injection h with h
      subst h
      refine ⟨?_, _, rfl⟩
      rw [List.prod_append, List.prod_cons]
      have e := Nat.div_add_mod s (pre.prod * post.prod)
      rw [hm, Nat.add_zero] at e
      calc pre.prod * (s / (pre.prod * post.prod) * post.prod) = pre.prod * post.prod * (s / (pre.prod * post.prod)) := by ring
        _ = s := e
    · cases h

theorem infer_isSome (pre post : Shape) (s : Nat) (h0 : pre.prod * post.prod ≠ 0) (h : pre.prod * post.prod ∣ s) : ∃ t, infer pre post s = some t := by
  unfold infer
  rw [if_neg h0, if_pos (Nat.mod_eq_zero_of_dvd h)]
  exact ⟨_, rfl⟩

theorem forall₂_self (data : Shape) : List.Forall₂ (fun d n => d = 1 ∨ d = n) data data := by
  induction data with
  | nil => exact .nil
  | cons d data ih => exact .cons (Or.inr rfl) ih

theorem prod_ne (data : Shape) (h : 0 ∉ data) : data.prod ≠ 0 := by
  induction data with
  | nil => simp
  | cons d data ih =>
    rw [List.prod_cons]
    have h1 : d ≠ 0 := fun e => h (by simp [e])
    have h2 := ih fun hm => h (by simp [hm])
    exact Nat.mul_ne_zero h1 h2

theorem prod_dvd {data part : Shape} (h : List.Forall₂ (fun d n => d = 1 ∨ d = n) data part) : data.prod ∣ part.prod := by
  induction h with
  | nil => simp
  | cons h _ ih =>
    rw [List.prod_cons, List.prod_cons]
    rcases h with rfl | rfl
    · rw [Nat.one_mul]; exact Dvd.dvd.mul_left ih _
    · exact Nat.mul_dvd_mul_left _ ih

theorem split_one (data : Shape) (h : data.count 1 ≠ 0) : data = data.take (data.idxOf 1) ++ 1 :: data.drop (data.idxOf 1 + 1) := by
  have hm : 1 ∈ data := by
    by_contra hc
    exact h (List.count_eq_zero.2 hc)
  have hl := List.idxOf_lt_length_iff.2 hm
  conv_lhs => rw [← List.take_append_drop (data.idxOf 1) data]
  rw [List.drop_eq_getElem_cons hl]
  simp

/-- **C96 (diagonal operators).** For all data arrays (not empty) and all vectors: unless the data array has several dimensions equal to 1 (ambiguous broadcasting), the vector is reshaped into an array that the operator accepts,
with the same number of elements, and an exception is raised only if the operator accepts no array with this number of elements. -/
theorem C96_diagonal (data : Shape) (b : Broadcast) (s : Nat) (h0 : 0 ∉ data) (h1 : data.count 1 ≤ 1) :
    (∀ t, toshapeDiagonal data b s = some t → t.prod = s ∧ Broadcasts data b t) ∧
    (toshapeDiagonal data b s = none ↔ ∀ t : Shape, t.prod = s → ¬ Broadcasts data b t) ∧
    ∀ t, Broadcasts data b t ↔ (diagonal data b).accepts t = true := by
  have hp : data.prod ≠ 0 := prod_ne data h0
  have key : ∀ t, toshapeDiagonal data b s = some t → t.prod = s ∧ Broadcasts data b t := by
    intro t ht
    unfold toshapeDiagonal at ht
    split at ht
    · rename_i hl
      injection ht with ht
      subst ht
      have : data = [] := List.length_eq_zero_iff.1 (by omega)
      subst this
      refine ⟨by simp, [], [s], ?_, .nil⟩
      cases b <;> rfl
    · split at ht
      · cases ht
      · split at ht
        · cases b with
          | rightward =>
            obtain ⟨e, n, e'⟩ := infer_some _ _ _ _ ht
            exact ⟨e, data, [n], e', forall₂_self data⟩
          | leftward =>
            obtain ⟨e, n, e'⟩ := infer_some _ _ _ _ ht
            exact ⟨e, data, [n], e', forall₂_self data⟩
        · rename_i hc
          obtain ⟨e, n, e'⟩ := infer_some _ _ _ _ ht
          refine ⟨e, t, [], by cases b <;> simp, ?_⟩
          conv => enter [2]; rw [split_one data hc]
          rw [e']
          exact List.rel_append (forall₂_self _) (.cons (Or.inl rfl) (forall₂_self _))
  refine ⟨key, ?_, fun t => (validatein_iff data b t).symm⟩
  constructor
  · intro hn t ht hb
    have hdvd : data.prod ∣ s := by
      obtain ⟨part, rest, e, hf⟩ := hb
      have : t.prod = part.prod * rest.prod := by
        cases b with
        | rightward => rw [e, List.prod_append]
        | leftward => rw [e, List.prod_append, Nat.mul_comm]
      rw [← ht, this]
      exact Dvd.dvd.mul_right (prod_dvd hf) _
    unfold toshapeDiagonal at hn
    split at hn
    · cases hn
    · rw [if_neg (by omega)] at hn
      split at hn
      · cases b with
        | rightward =>
          obtain ⟨t', ht'⟩ := infer_isSome data [] s (by simpa using hp) (by simpa using hdvd)
          simp only [ht'] at hn
          cases hn
        | leftward =>
          obtain ⟨t', ht'⟩ := infer_isSome [] data s (by simpa using hp) (by simpa using hdvd)
          simp only [ht'] at hn
          cases hn
      · rename_i hc
        have e : data.prod = (data.take (data.idxOf 1)).prod * (data.drop (data.idxOf 1 + 1)).prod := by
          conv_lhs => rw [split_one data hc]
          rw [List.prod_append, List.prod_cons, Nat.one_mul]
        rw [e] at hp hdvd
        obtain ⟨t', ht'⟩ := infer_isSome _ _ s hp hdvd
        rw [ht'] at hn
        cases hn
  · intro h
    cases hn : toshapeDiagonal data b s with
    | none => rfl
    | some t => exact absurd (key t hn).2 (h t (key t hn).1)

/-- `DiagonalOperator([[1, 2, 3], [4, 5, 6]], broadcast='rightward').matvec(v)` for vectors of 24 and 20 elements, and data of shape (2, 1, 3) -/
example : toshapeDiagonal [2, 3] .rightward 24 = some [2, 3, 4] ∧ toshapeDiagonal [2, 3] .leftward 24 = some [4, 2, 3] ∧
    toshapeDiagonal [2, 3] .rightward 20 = none ∧ toshapeDiagonal [2, 1, 3] .rightward 24 = some [2, 4, 3] ∧ toshapeDiagonal [2, 1, 1] .rightward 24 = none := by decide

/-- **C96 (blocks).** If the operands accept all the arrays with one or two dimensions that have their dimension along the axis, the vectors are reshaped into an array with the same number of elements that the block operator accepts, and an
exception is raised only if it accepts no array with this number of elements.  Missing: operands that accept only arrays with more dimensions (see `C96_block_fails`); an empty partition. -/
theorem C96_block_partial (ops : List (Op × Nat)) (axis : Int) (s : Nat) (hne : 0 < (ops.map (·.2)).sum)
    (h0 : axis = 0 → ∀ o ∈ ops, o.1.accepts [o.2] = true ∧ ∀ n, o.1.accepts [o.2, n] = true)
    (h1 : axis = -1 → ∀ o ∈ ops, o.1.accepts [o.2] = true ∧ ∀ n, o.1.accepts [n, o.2] = true) :
    (∀ t, toshapeBlock (ops.map fun o => some o.2) axis s = some t → t.prod = s ∧ BlockAccepts ops axis t) ∧
    (toshapeBlock (ops.map fun o => some o.2) axis s = none → ∀ t : Shape, t.prod = s → ¬ BlockAccepts ops axis t) := by
  have e : ((ops.map fun o => some o.2).map (·.getD 0)).sum = (ops.map (·.2)).sum := by
    rw [List.map_map]; rfl
  have hnone : none ∉ ops.map fun o => some o.2 := by simp
  constructor
  · intro t ht
    unfold toshapeBlock at ht
    split at ht
    · cases ht
    · rename_i hc
      have ha : axis = 0 ∨ axis = -1 := by
        by_contra hx
        exact hc (Or.inr hx)
      simp only [e] at ht
      split at ht
      · rename_i hs
        injection ht with ht
        subst ht
        refine ⟨by simp, ?_⟩
        rcases ha with ha | ha
        · exact Or.inl ⟨ha, [], by rw [hs], fun o ho => (h0 ha o ho).1⟩
        · exact Or.inr ⟨ha, [], by rw [hs]; rfl, fun o ho => (h1 ha o ho).1⟩
      · split at ht
        · rename_i ha
          obtain ⟨p1, n, p2⟩ := infer_some _ _ _ _ ht
          exact ⟨p1, Or.inl ⟨ha, [n], p2, fun o ho => (h0 ha o ho).2 n⟩⟩
        · rename_i ha0
          have ha : axis = -1 := ha.resolve_left ha0
          obtain ⟨p1, n, p2⟩ := infer_some _ _ _ _ ht
          exact ⟨p1, Or.inr ⟨ha, [n], p2, fun o ho => (h1 ha o ho).2 n⟩⟩
  · intro hn t ht hb
    have hdvd : (ops.map (·.2)).sum ∣ s := by
      rcases hb with ⟨_, rest, hb, _⟩ | ⟨_, rest, hb, _⟩
      · rw [← ht, hb, List.prod_cons]; exact Nat.dvd_mul_right _ _
      · rw [← ht, hb, List.prod_append, List.prod_singleton]; exact Nat.dvd_mul_left _ _
    have ha : axis = 0 ∨ axis = -1 := hb.imp (·.1) (·.1)
    unfold toshapeBlock at hn
    rw [if_neg (by rintro (h | h); exacts [hnone h, h ha])] at hn
    simp only [e] at hn
    split at hn
    · cases hn
    · split at hn
      · obtain ⟨t', ht'⟩ := infer_isSome [(ops.map (·.2)).sum] [] s (by simp; omega) (by simpa using hdvd)
        rw [ht'] at hn
        cases hn
      · obtain ⟨t', ht'⟩ := infer_isSome [] [(ops.map (·.2)).sum] s (by simp; omega) (by simpa using hdvd)
        rw [ht'] at hn
        cases hn

/-- The blocks of two diagonal operators with 2 and 3 elements, along the first axis: they accept all arrays whose first dimension is 2 (3). -/
example : (∀ n, (diagonal [2] .rightward).accepts [2, n] = true ∧ (diagonal [3] .rightward).accepts [3, n] = true) ∧
    toshapeBlock [some 2, some 3] 0 20 = some [5, 4] ∧ toshapeBlock [some 2, some 3] (-1) 20 = some [4, 5] ∧ toshapeBlock [some 2, some 3] 0 5 = some [5] ∧
    toshapeBlock [some 2, some 3] 0 7 = none ∧ toshapeBlock [some 2, none] 0 20 = none ∧ toshapeBlock [some 2, some 3] 1 20 = none := by
  refine ⟨fun n => ⟨by simp [diagonal, validatein], by simp [diagonal, validatein]⟩, by decide⟩

/-- **C96 (blocks, negation).** For blocks of operators that accept arrays of two dimensions and more, such as `DiagonalOperator([[1, 2, 3], [4, 5, 6]], broadcast='rightward')`, a vector of 24 elements is reshaped into an array of shape (4, 6) that
the blocks do not accept, although they accept the shape (4, 3, 2). -/
theorem C96_block_fails : ∃ (ops : List (Op × Nat)) (s : Nat) (t : Shape), toshapeBlock (ops.map fun o => some o.2) 0 s = some t ∧ ¬ BlockAccepts ops 0 t ∧
    ∃ t' : Shape, t'.prod = s ∧ BlockAccepts ops 0 t' := by
  refine ⟨[(diagonal [2, 3] .rightward, 2), (diagonal [2, 3] .rightward, 2)], 24, [4, 6], by decide, ?_, [4, 3, 2], by decide, ?_⟩
  · rintro (⟨_, rest, e, h⟩ | ⟨h, _⟩)
    · injection e with _ e
      subst e
      have := h _ (List.mem_cons_self ..)
      revert this
      decide
    · cases h
  · refine Or.inl ⟨rfl, [3, 2], rfl, ?_⟩
    decide

/-- **C96 (sums and columns).** If all the operands reshape the vectors in the same way, the sum (or the block column) accepts the array into which a vector is reshaped.  Missing: operands that reshape them differently (see `C96_first_fails`). -/
theorem C96_first_partial (ops : List Op) (s : Nat) (hacc : ∀ o ∈ ops, ∀ t, o.toshape s = some t → t.prod = s ∧ o.accepts t = true)
    (hsame : ∀ o ∈ ops, ∀ o' ∈ ops, o.toshape s = o'.toshape s) (t : Shape) (ht : toshapeFirst ops s = some t) : t.prod = s ∧ ∀ o ∈ ops, o.accepts t = true := by
  cases ops with
  | nil => cases ht
  | cons o ops =>
    have ht : o.toshape s = some t := ht
    refine ⟨(hacc o (by simp) t ht).1, fun o' ho' => (hacc o' ho' t ?_).2⟩
    rw [hsame o' ho' o (by simp), ht]

example : toshapeFirst [diagonal [2] .rightward, diagonal [2] .rightward] 6 = some [2, 3] := by decide

/-- **C96 (sums and columns, negation).** The first operand only is used: in `BlockColumnOperator([HomothetyOperator(2), DiagonalOperator([1, 2], broadcast='rightward')], new_axisout=0)`, a vector of 4 elements is not
reshaped, and rejected by the second operand, although both accept the shape (2, 2), into which the other order of the operands reshapes it. -/
theorem C96_first_fails : ∃ (o1 o2 : Op) (t1 t2 : Shape), (∀ s t, o1.toshape s = some t → o1.accepts t = true) ∧ (∀ s t, o2.toshape s = some t → o2.accepts t = true) ∧
    toshapeFirst [o1, o2] 4 = some t1 ∧ o2.accepts t1 = false ∧ toshapeFirst [o2, o1] 4 = some t2 ∧ o1.accepts t2 = true ∧ o2.accepts t2 = true := by
  refine ⟨homothety, diagonal [2] .rightward, [4], [2, 2], fun _ _ _ => rfl, fun s t ht => ?_, rfl, by decide, by decide, rfl, by decide⟩
  have := C96_diagonal [2] .rightward s (by decide) (by decide)
  exact (this.2.2 t).1 (this.1 t ht).2

end Verif.ToShape
