import Verif.Block.Slices
import Mathlib.Algebra.BigOperators.Ring.Finset
import Mathlib.Algebra.BigOperators.Group.Finset.Basic
import Mathlib.Algebra.BigOperators.Group.List.Lemmas

/- Property C23: block operators are block matrices. -/

namespace Verif.Block

open Verif.Shape

variable {R : Type}

/-- The multi-indices of a shape. -/
def indices : Shape → Finset MIndex
  | [] => {[]}
  | d :: s => (Finset.range d).biUnion (fun i => (indices s).image (fun k => i :: k))

theorem mem_indices (s : Shape) (k : MIndex) : k ∈ indices s ↔ inShape s k = true := by
  induction s generalizing k with
  | nil => cases k <;> simp [indices, inShape]
  | cons d s ih =>
    cases k with
    | nil => simp [indices, inShape]
    | cons i k =>
      simp only [indices, Finset.mem_biUnion, Finset.mem_range, Finset.mem_image, List.cons.injEq, inShape, Bool.and_eq_true,
        decide_eq_true_eq, ← ih]
      constructor
      · rintro ⟨j, hj, l, hl, rfl, rfl⟩; exact ⟨hj, hl⟩
      · rintro ⟨hj, hl⟩; exact ⟨i, hj, k, hl, rfl, rfl⟩

/-- The part number i of an array of shape s. -/
def part (s : Shape) (idxs : List (List Index)) (i : Nat) : List Index := expand s.length (idxs.getD i [])

/-- Its shape. -/
def partShape (s : Shape) (idxs : List (List Index)) (i : Nat) : Shape := viewShape (part s idxs i) s

theorem sum_tiles [AddCommMonoid R] {s : Shape} {idxs : List (List Index)} (ht : Tiles s idxs) (f : MIndex → R) :
    ∑ k ∈ indices s, f k =
      ∑ i ∈ Finset.range idxs.length, ∑ l ∈ indices (partShape s idxs i), f (place (part s idxs i) l) := by
  classical
  have hget : ∀ i, i < idxs.length → idxs[i]? = some (idxs.getD i []) := by
    intro i hi
    rw [List.getD_eq_getElem?_getD, List.getElem?_eq_getElem hi]; rfl
  have hset : indices s = (Finset.range idxs.length).biUnion
      (fun i => (indices (partShape s idxs i)).image (place (part s idxs i))) := by
    ext k
    simp only [Finset.mem_biUnion, Finset.mem_range, Finset.mem_image, mem_indices]
    constructor
    · intro hk
      obtain ⟨i, idx, l, hi, hl, rfl⟩ := ht.cover k hk
      have hd : idxs.getD i [] = idx := by rw [List.getD_eq_getElem?_getD, hi]; rfl
      exact ⟨i, (List.getElem?_eq_some_iff.mp hi).1, l, by simpa only [partShape, part, hd] using hl, by simp only [part, hd]⟩
    · rintro ⟨i, hi, l, hl, rfl⟩
      exact ht.inside i _ (hget i hi) l hl
  rw [hset, Finset.sum_biUnion]
  · apply Finset.sum_congr rfl
    intro i hi
    rw [Finset.mem_range] at hi
    rw [Finset.sum_image]
    intro l hl l' hl' he
    rw [Finset.mem_coe, mem_indices] at hl hl'
    exact (ht.once i i _ _ (hget i hi) (hget i hi) l l' hl hl' he).2
  · intro i hi j hj hne
    rw [Finset.mem_coe, Finset.mem_range] at hi hj
    rw [Function.onFun, Finset.disjoint_left]
    intro k hk hk'
    simp only [Finset.mem_image, mem_indices] at hk hk'
    obtain ⟨l, hl, rfl⟩ := hk
    obtain ⟨l', hl', he⟩ := hk'
    exact hne (ht.once i j _ _ (hget i hi) (hget j hj) l l' hl hl' he.symm).1

/-! ### Values of the evaluation -/

/-- An index of a tiling. -/
structure Inside (s : Shape) (idx : List Index) : Prop where
  inside : ∀ l, inShape (viewShape (expand s.length idx) s) l = true → inShape s (place (expand s.length idx) l) = true
  found : ∀ k, inShape s k = true → ∀ l, unplace (expand s.length idx) k = some l ↔
      inShape (viewShape (expand s.length idx) s) l = true ∧ place (expand s.length idx) l = k

theorem Tiles.each {s : Shape} {idxs : List (List Index)} (ht : Tiles s idxs) : ∀ idx ∈ idxs, Inside s idx := by
  intro idx hidx
  obtain ⟨i, hi⟩ := List.mem_iff_getElem?.mp hidx
  exact ⟨ht.inside i idx hi, ht.found i idx hi⟩

theorem view_congr [Zero R] {s : Shape} {idx : List Index} (h : Inside s idx) {a b : Arr R}
    (hab : ∀ k, inShape s k = true → a k = b k) : view s idx a = view s idx b := by
  funext l
  simp only [view, clip]
  split
  · rename_i hl
    exact hab _ (h.inside l hl)
  · rfl

theorem write_back [Zero R] {s : Shape} {idx : List Index} (h : Inside s idx) (a : Arr R) (k : MIndex)
    (hk : inShape s k = true) : write s idx (view s idx a) a k = a k := by
  simp only [write]
  split
  · rename_i l hl
    obtain ⟨h1, h2⟩ := (h.found k hk l).mp hl
    simp [view, clip, h1, h2]
  · rfl

/-- The results of the blocks, for the input x. -/
def results [Zero R] (sx : Shape) (x : Arr R) (ops : List (Operand R)) (sins : List (List Index)) : List (Arr R) :=
  List.zipWith (fun op sin => op.fn (viewShape (expand sx.length sin) sx) (view sx sin x)) ops sins

theorem diagLoop_value [Zero R] (sx sy : Shape) (x y : Nat) (hxy : x ≠ y) (ops : List (Operand R)) (sins souts : List (List Index))
    (oks : List Bool) (h1 : ops.length = sins.length) (h2 : ops.length = souts.length) (h3 : ops.length = oks.length)
    (hin : ∀ idx ∈ sins, Inside sx idx) (x0 : Arr R) (m : Mem R) (hm : ∀ k, inShape sx k = true → m x k = x0 k) :
    diagLoop sx sy x y ops sins souts oks m y = scatter sy souts (results sx x0 ops sins) (m y) ∧
      ∀ k, inShape sx k = true → diagLoop sx sy x y ops sins souts oks m x k = x0 k := by
  induction ops generalizing sins souts oks m with
  | nil =>
    cases sins with
    | nil =>
      cases souts with
      | nil => exact ⟨rfl, hm⟩
      | cons _ _ => simp at h2
    | cons _ _ => simp at h1
  | cons op ops ih =>
    cases sins with
    | nil => simp at h1
    | cons sin sins =>
      cases souts with
      | nil => simp at h2
      | cons sout souts =>
        cases oks with
        | nil => simp at h3
        | cons ok oks =>
          have hI := hin sin (by simp)
          have hv : view sx sin (m x) = view sx sin x0 := view_congr hI hm
          simp only [diagLoop]
          have hstep : (diagStep sx sy x y op sin sout ok m) y =
              write sy sout (op.fn (viewShape (expand sx.length sin) sx) (view sx sin x0)) (m y) ∧
              ∀ k, inShape sx k = true → (diagStep sx sy x y op sin sout ok m) x k = x0 k := by
            unfold diagStep
            simp only [hv]
            split
            · refine ⟨by simp [Mem.set, hxy.symm], ?_⟩
              intro k hk
              simp only [Mem.set, if_true, if_neg hxy]
              rw [← hv, write_back hI (m x) k hk, hm k hk]
            · refine ⟨by simp [Mem.set], ?_⟩
              intro k hk
              simp only [Mem.set, if_neg hxy]
              exact hm k hk
          obtain ⟨e1, e2⟩ := ih sins souts oks (by simpa using h1) (by simpa using h2) (by simpa using h3)
            (fun idx hidx => hin idx (by simp [hidx])) (diagStep sx sy x y op sin sout ok m) hstep.2
          refine ⟨?_, e2⟩
          rw [e1, hstep.1]
          rfl

theorem colLoop_value (sx sy : Shape) (x y : Nat) (hxy : x ≠ y) (ops : List (Operand R)) (souts : List (List Index)) (m : Mem R) :
    colLoop sx sy x y ops souts m y = scatter sy souts (ops.map (fun op => op.fn sx (m x))) (m y) ∧
      colLoop sx sy x y ops souts m x = m x := by
  induction ops generalizing souts m with
  | nil => cases souts <;> exact ⟨rfl, rfl⟩
  | cons op ops ih =>
    cases souts with
    | nil => exact ⟨rfl, rfl⟩
    | cons sout souts =>
      simp only [colLoop]
      obtain ⟨e1, e2⟩ := ih souts (m.set y (write sy sout (op.fn sx (m x)) (m y)))
      have hx : (m.set y (write sy sout (op.fn sx (m x)) (m y))) x = m x := by simp [Mem.set, hxy]
      rw [hx] at e1 e2
      refine ⟨?_, e2⟩
      rw [e1]
      simp [Mem.set, scatter]

theorem rowBack_value [Zero R] (sx : Shape) (x y : Nat) (hxy : x ≠ y) (op : Operand R) (sin : List Index) (hI : Inside sx sin)
    (ok : Bool) (x0 : Arr R) (m : Mem R) (hm : ∀ k, inShape sx k = true → m x k = x0 k) :
    rowBack sx x op sin ok m (view sx sin x0) y = m y ∧
      ∀ k, inShape sx k = true → rowBack sx x op sin ok m (view sx sin x0) x k = x0 k := by
  unfold rowBack
  split
  · refine ⟨by simp [Mem.set, hxy.symm], ?_⟩
    intro k hk
    simp only [Mem.set, if_true]
    rw [← view_congr hI hm, write_back hI (m x) k hk, hm k hk]
  · exact ⟨rfl, hm⟩

theorem rowLoop_value [Zero R] (operation : R → R → R) (sx : Shape) (x y tmp : Nat) (hxy : x ≠ y) (htx : tmp ≠ x) (hty : tmp ≠ y)
    (buf : Option Nat) (ops : List (Operand R)) (sins : List (List Index)) (oks : List Bool) (h1 : ops.length = sins.length)
    (h3 : ops.length = oks.length) (hin : ∀ idx ∈ sins, Inside sx idx)
    (hbuf : buf = some tmp ∨ buf = none ∧ ∀ o ∈ ops, o.update = true) (x0 : Arr R) (m : Mem R)
    (hm : ∀ k, inShape sx k = true → m x k = x0 k) :
    ∃ m', rowLoop operation sx x y buf ops sins oks m = some m' ∧
      (∀ k, m' y k = (results sx x0 ops sins).foldl (fun a r => operation a (r k)) (m y k)) ∧
      ∀ k, inShape sx k = true → m' x k = x0 k := by
  induction ops generalizing sins oks m with
  | nil =>
    cases sins with
    | nil => exact ⟨m, by cases oks <;> rfl, fun k => rfl, hm⟩
    | cons _ _ => simp at h1
  | cons op ops ih =>
    cases sins with
    | nil => simp at h1
    | cons sin sins =>
      cases oks with
      | nil => simp at h3
      | cons ok oks =>
        have hI := hin sin (by simp)
        have hv : view sx sin (m x) = view sx sin x0 := view_congr hI hm
        simp only [rowLoop, hv]
        have hih := fun m' hm' => ih sins oks (by simpa using h1) (by simpa using h3)
          (fun idx hidx => hin idx (by simp [hidx]))
          (hbuf.imp id (fun h => ⟨h.1, fun o ho => h.2 o (by simp [ho])⟩)) m' hm'
        by_cases hu : op.update = true
        · rw [if_pos hu]
          obtain ⟨b1, b2⟩ := rowBack_value sx x y hxy op sin hI ok x0
            (m.set y (fun k => operation (m y k) (op.fn (viewShape (expand sx.length sin) sx) (view sx sin x0) k)))
            (fun k hk => by simp only [Mem.set, if_neg hxy]; exact hm k hk)
          obtain ⟨m', e1, e2, e3⟩ := hih _ b2
          refine ⟨m', e1, ?_, e3⟩
          intro k
          rw [e2 k, b1]
          simp [Mem.set, results]
        · rw [if_neg hu]
          rcases hbuf with rfl | ⟨rfl, hall⟩
          · simp only
            obtain ⟨b1, b2⟩ := rowBack_value sx x y hxy op sin hI ok x0
              ((m.set tmp (op.fn (viewShape (expand sx.length sin) sx) (view sx sin x0))).set y (fun k => operation
                (m.set tmp (op.fn (viewShape (expand sx.length sin) sx) (view sx sin x0)) y k)
                (m.set tmp (op.fn (viewShape (expand sx.length sin) sx) (view sx sin x0)) tmp k)))
              (fun k hk => by simp only [Mem.set, if_neg hxy, if_neg htx.symm]; exact hm k hk)
            obtain ⟨m', e1, e2, e3⟩ := hih _ b2
            refine ⟨m', e1, ?_, e3⟩
            intro k
            rw [e2 k, b1]
            simp [Mem.set, results, hty.symm]
          · exact absurd (hall op (by simp)) hu

theorem rowDirect_value [Zero R] (operation : R → R → R) (sx : Shape) (x y tmp : Nat) (hxy : x ≠ y) (htx : tmp ≠ x) (hty : tmp ≠ y)
    (ops : List (Operand R)) (sins : List (List Index)) (oks : List Bool) (hne : ops ≠ []) (h1 : ops.length = sins.length)
    (h3 : ops.length = oks.length) (hin : ∀ idx ∈ sins, Inside sx idx) (m : Mem R) :
    ∃ m' r rs, results sx (m x) ops sins = r :: rs ∧ rowDirect operation sx x y tmp ops sins oks m = some m' ∧
      (∀ k, m' y k = rs.foldl (fun a r => operation a (r k)) (r k)) ∧
      ∀ k, inShape sx k = true → m' x k = m x k := by
  cases ops with
  | nil => exact absurd rfl hne
  | cons op ops =>
    cases sins with
    | nil => simp at h1
    | cons sin sins =>
      cases oks with
      | nil => simp at h3
      | cons ok oks =>
        have hI := hin sin (by simp)
        simp only [rowDirect]
        obtain ⟨b1, b2⟩ := rowBack_value sx x y hxy op sin hI ok (m x)
          (m.set y (op.fn (viewShape (expand sx.length sin) sx) (view sx sin (m x))))
          (fun k hk => by simp only [Mem.set, if_neg hxy])
        obtain ⟨m', e1, e2, e3⟩ := rowLoop_value operation sx x y tmp hxy htx hty
          (if ops.any (fun o => !o.update) then some tmp else none) ops sins oks (by simpa using h1) (by simpa using h3)
          (fun idx hidx => hin idx (by simp [hidx])) (by
            cases hc : ops.any (fun o => !o.update) with
            | true => left; rfl
            | false =>
              right
              refine ⟨rfl, ?_⟩
              intro o ho
              rw [List.any_eq_false] at hc
              simpa using hc o ho) (m x) _ b2
        refine ⟨m', _, _, rfl, e1, ?_, e3⟩
        intro k
        rw [e2 k, b1]
        simp [Mem.set, results]

/-! ### Block matrices -/

/-- The matrix D has the blocks M i: its rows are partitioned by the slices of the output (if there is an output axis), its columns by the
ones of the input (if there is an input axis), and the blocks out of the diagonal are zero if there are both. -/
def IsBlockMatrix [Zero R] (b : BlockOp R) (sx sy : Shape) (M : Nat → MIndex → MIndex → R) (D : MIndex → MIndex → R) : Prop :=
  match b.axisin, b.axisout with
  | some ai, some ao =>
    ∀ i j, i < b.operands.length → j < b.operands.length →
      ∀ l, inShape (partShape sy (getSlices b.partitionout ao) i) l = true →
      ∀ l', inShape (partShape sx (getSlices b.partitionin ai) j) l' = true →
      D (place (part sy (getSlices b.partitionout ao) i) l) (place (part sx (getSlices b.partitionin ai) j) l') =
        if i = j then M i l l' else 0
  | none, some ao =>
    ∀ i, i < b.operands.length → ∀ l, inShape (partShape sy (getSlices b.partitionout ao) i) l = true →
      ∀ k', inShape sx k' = true → D (place (part sy (getSlices b.partitionout ao) i) l) k' = M i l k'
  | some ai, none =>
    ∀ j, j < b.operands.length → ∀ k, inShape sy k = true →
      ∀ l', inShape (partShape sx (getSlices b.partitionin ai) j) l' = true →
        D k (place (part sx (getSlices b.partitionin ai) j) l') = M j k l'
  | none, none => False

/-- The shape of the input of the block number i. -/
def BlockOp.inputShape (b : BlockOp R) (sx : Shape) (i : Nat) : Shape :=
  match b.axisin with
  | some ai => partShape sx (getSlices b.partitionin ai) i
  | none => sx

/-- The shape of the output of the block number i. -/
def BlockOp.outputShape (b : BlockOp R) (sy : Shape) (i : Nat) : Shape :=
  match b.axisout with
  | some ao => partShape sy (getSlices b.partitionout ao) i
  | none => sy

/-- The block number i is the multiplication by the matrix M i. -/
def IsMatrices [Semiring R] (b : BlockOp R) (sx sy : Shape) (M : Nat → MIndex → MIndex → R) : Prop :=
  ∀ (i : Nat) (op : Operand R), b.operands[i]? = some op → ∀ x l, inShape (b.outputShape sy i) l = true →
    op.fn (b.inputShape sx i) x l = ∑ l' ∈ indices (b.inputShape sx i), M i l l' * x l'

/-- The partitions have one entry per block and fit the shapes of the input and of the output. -/
structure WellFormed (b : BlockOp R) (sx sy : Shape) : Prop where
  blocks : b.operands ≠ []
  axes : b.axisin ≠ none ∨ b.axisout ≠ none
  lenin : ∀ a, b.axisin = some a → b.partitionin.length = b.operands.length ∧ Fits b.partitionin a sx
  lenout : ∀ a, b.axisout = some a → b.partitionout.length = b.operands.length ∧ Fits b.partitionout a sy

theorem getD_getSlices {ps : List Nat} {ax : Axis} {s : Shape} (h : Fits ps ax s) {i : Nat} (hi : i < ps.length) :
    (getSlices ps ax)[i]? = some ((getSlices ps ax).getD i []) := by
  have := (C22_parts ps ax s h).1
  rw [List.getD_eq_getElem?_getD, List.getElem?_eq_getElem (by omega)]; rfl

theorem results_get [Zero R] (sx : Shape) (x : Arr R) (ops : List (Operand R)) (sins : List (List Index)) (i : Nat) (op : Operand R)
    (h : ops[i]? = some op) (hl : ops.length = sins.length) :
    (results sx x ops sins)[i]? = some (op.fn (partShape sx sins i) (view sx (sins.getD i []) x)) := by
  have hi := (List.getElem?_eq_some_iff.mp h).1
  have h2 : sins[i]? = some (sins.getD i []) := by
    rw [List.getD_eq_getElem?_getD, List.getElem?_eq_getElem (by omega)]; rfl
  rw [results, List.getElem?_zipWith, h, h2]
  rfl

theorem matrix_view [Semiring R] {s : Shape} {idxs : List (List Index)} (i : Nat) (M : MIndex → R) (x : Arr R) :
    ∑ l' ∈ indices (partShape s idxs i), M l' * view s (idxs.getD i []) x l' =
      ∑ l' ∈ indices (partShape s idxs i), M l' * x (place (part s idxs i) l') := by
  apply Finset.sum_congr rfl
  intro l' hl'
  rw [mem_indices] at hl'
  congr 1
  simp only [view, clip]
  rw [if_pos (show inShape (viewShape (expand s.length (idxs.getD i [])) s) l' = true from hl')]
  rfl

theorem foldl_add [AddCommMonoid R] (rs : List (Arr R)) (k : MIndex) (a : R) :
    rs.foldl (fun a r => a + r k) a = a + (rs.map (fun r => r k)).sum := by
  induction rs generalizing a with
  | nil => simp
  | cons r rs ih => simp [ih, add_assoc]

theorem sum_range_get [AddCommMonoid R] (rs : List (Arr R)) (k : MIndex) {n : Nat} (hn : n = rs.length) :
    (rs.map (fun r => r k)).sum = ∑ i ∈ Finset.range n, (rs[i]?.map (fun r => r k)).getD 0 := by
  subst hn
  induction rs with
  | nil => simp
  | cons r rs ih =>
    rw [List.length_cons, Finset.sum_range_succ', List.map_cons, List.sum_cons, ih, add_comm]
    simp

/-- C23.  The evaluation of a block column, of a block row (whose operation is the addition) or of a block diagonal operator is the
multiplication by the block matrix, and the input is left unchanged. -/
theorem C23_matrix [Semiring R] (b : BlockOp R) (sx sy : Shape) (hw : WellFormed b sx sy) (M : Nat → MIndex → MIndex → R)
    (hM : IsMatrices b sx sy M) (D : MIndex → MIndex → R) (hD : IsBlockMatrix b sx sy M D) (x y tmp : Nat) (hxy : x ≠ y)
    (htx : tmp ≠ x) (hty : tmp ≠ y) (oks : List Bool) (ho : oks.length = b.operands.length) (m : Mem R) :
    ∃ m', b.direct (· + ·) sx sy x y tmp oks m = some m' ∧
      (∀ k, inShape sy k = true → m' y k = ∑ k' ∈ indices sx, D k k' * m x k') ∧
      ∀ k, inShape sx k = true → m' x k = m x k := by
  cases hai : b.axisin with
  | none =>
    cases hao : b.axisout with
    | none => have := hw.axes; simp [hai, hao] at this
    | some ao =>
      obtain ⟨hl, hf⟩ := hw.lenout ao hao
      have ht := C22_tiles _ _ _ hf
      have hlen := (C22_parts _ _ _ hf).1
      simp only [BlockOp.direct, hai, hao, IsBlockMatrix] at hD ⊢
      obtain ⟨e1, e2⟩ := colLoop_value sx sy x y hxy b.operands (getSlices b.partitionout ao) m
      refine ⟨_, rfl, ?_, fun k _ => by rw [e2]⟩
      intro k hk
      rw [e1]
      obtain ⟨i, idx, l, hi, hin, rfl⟩ := ht.cover k hk
      have hilt : i < b.operands.length := by
        have := (List.getElem?_eq_some_iff.mp hi).1; omega
      obtain ⟨op, hop⟩ : ∃ op, b.operands[i]? = some op := ⟨_, List.getElem?_eq_getElem hilt⟩
      have hd : (getSlices b.partitionout ao).getD i [] = idx := by rw [List.getD_eq_getElem?_getD, hi]; rfl
      rw [scatter_get sy _ _ _ ht i idx (op.fn sx (m x)) hi (by rw [List.getElem?_map, hop]; rfl) l hin]
      have hin' : inShape (partShape sy (getSlices b.partitionout ao) i) l = true := by
        simpa only [partShape, part, hd] using hin
      have := hM i op hop (m x) l (by simpa only [BlockOp.outputShape, hao] using hin')
      simp only [BlockOp.inputShape, hai] at this
      rw [this]
      apply Finset.sum_congr rfl
      intro k' hk'
      rw [mem_indices] at hk'
      have := hD i hilt l hin' k' hk'
      simp only [part, hd] at this
      rw [this]
  | some ai =>
    obtain ⟨hli, hfi⟩ := hw.lenin ai hai
    have hti := C22_tiles _ _ _ hfi
    have hleni := (C22_parts _ _ _ hfi).1
    cases hao : b.axisout with
    | none =>
      simp only [BlockOp.direct, hai, hao, IsBlockMatrix] at hD ⊢
      obtain ⟨m', r, rs, e0, e1, e2, e3⟩ := rowDirect_value (· + ·) sx x y tmp hxy htx hty b.operands
        (getSlices b.partitionin ai) oks hw.blocks (by omega) (by omega) hti.each m
      refine ⟨m', e1, ?_, e3⟩
      intro k hk
      rw [e2 k, foldl_add]
      have hsum : r k + (rs.map (fun r => r k)).sum = ((results sx (m x) b.operands (getSlices b.partitionin ai)).map
          (fun r => r k)).sum := by rw [e0]; simp
      have hrl : (results sx (m x) b.operands (getSlices b.partitionin ai)).length = b.operands.length := by
        simp only [results, List.length_zipWith]; omega
      rw [hsum, sum_tiles hti, sum_range_get _ k hrl.symm]
      rw [show (getSlices b.partitionin ai).length = b.operands.length by omega]
      apply Finset.sum_congr rfl
      intro i hi
      rw [Finset.mem_range] at hi
      obtain ⟨op, hop⟩ : ∃ op, b.operands[i]? = some op := ⟨_, List.getElem?_eq_getElem hi⟩
      rw [results_get sx (m x) b.operands _ i op hop (by omega)]
      have := hM i op hop (view sx ((getSlices b.partitionin ai).getD i []) (m x)) k
        (by simpa only [BlockOp.outputShape, hao] using hk)
      simp only [BlockOp.inputShape, hai] at this
      simp only [Option.map_some, Option.getD_some]
      rw [this, matrix_view]
      apply Finset.sum_congr rfl
      intro l' hl'
      rw [mem_indices] at hl'
      rw [hD i hi k hk l' hl']
    | some ao =>
      obtain ⟨hlo, hfo⟩ := hw.lenout ao hao
      have hto := C22_tiles _ _ _ hfo
      have hleno := (C22_parts _ _ _ hfo).1
      simp only [BlockOp.direct, hai, hao, IsBlockMatrix] at hD ⊢
      obtain ⟨e1, e2⟩ := diagLoop_value sx sy x y hxy b.operands (getSlices b.partitionin ai) (getSlices b.partitionout ao) oks
        (by omega) (by omega) (by omega) hti.each (m x) m (fun _ _ => rfl)
      refine ⟨_, rfl, ?_, e2⟩
      intro k hk
      rw [e1]
      obtain ⟨i, idx, l, hi, hin, rfl⟩ := hto.cover k hk
      have hilt : i < b.operands.length := by
        have := (List.getElem?_eq_some_iff.mp hi).1; omega
      obtain ⟨op, hop⟩ : ∃ op, b.operands[i]? = some op := ⟨_, List.getElem?_eq_getElem hilt⟩
      have hd : (getSlices b.partitionout ao).getD i [] = idx := by rw [List.getD_eq_getElem?_getD, hi]; rfl
      rw [scatter_get sy _ _ _ hto i idx _ hi (results_get sx (m x) b.operands _ i op hop (by omega)) l hin]
      have hin' : inShape (partShape sy (getSlices b.partitionout ao) i) l = true := by
        simpa only [partShape, part, hd] using hin
      have := hM i op hop (view sx ((getSlices b.partitionin ai).getD i []) (m x)) l
        (by simpa only [BlockOp.outputShape, hao] using hin')
      simp only [BlockOp.inputShape, hai] at this
      rw [this, matrix_view, sum_tiles hti]
      rw [Finset.sum_eq_single_of_mem i (by rw [Finset.mem_range]; omega)]
      · apply Finset.sum_congr rfl
        intro l' hl'
        rw [mem_indices] at hl'
        have := hD i i hilt hilt l hin' l' hl'
        simp only [part, hd, if_true] at this
        simp only [part]
        rw [this]
      · intro j hj hne
        rw [Finset.mem_range] at hj
        apply Finset.sum_eq_zero
        intro l' hl'
        rw [mem_indices] at hl'
        have := hD i j hilt (by omega) l hin' l' hl'
        simp only [part, hd, if_neg hne.symm] at this
        simp only [part]
        rw [this, zero_mul]

theorem transpose_matrix [Semiring R] (b : BlockOp R) (ts : List (Operand R)) (hl : ts.length = b.operands.length) (sx sy : Shape)
    (M : Nat → MIndex → MIndex → R) (D : MIndex → MIndex → R) (hD : IsBlockMatrix b sx sy M D) :
    IsBlockMatrix (b.transpose ts) sy sx (fun i k l => M i l k) (fun k l => D l k) := by
  unfold IsBlockMatrix at hD ⊢
  simp only [BlockOp.transpose]
  cases hai : b.axisin with
  | none =>
    cases hao : b.axisout with
    | none => simp only [hai, hao] at hD
    | some ao =>
      simp only [hai, hao] at hD ⊢
      intro j hj k hk l' hl'
      exact hD j (by omega) l' hl' k hk
  | some ai =>
    cases hao : b.axisout with
    | none =>
      simp only [hai, hao] at hD ⊢
      intro i hi l hl' k hk
      exact hD i (by omega) k hk l hl'
    | some ao =>
      simp only [hai, hao] at hD ⊢
      intro i j hi hj l hl' l' hl2
      rw [hD j i (by omega) (by omega) l' hl2 l hl']
      by_cases h : i = j
      · subst h; simp
      · rw [if_neg h, if_neg (fun e => h e.symm)]

/-- C23.  The transpose of a block operator is the multiplication by the transpose of its matrix. -/
theorem C23_transpose [Semiring R] (b : BlockOp R) (sx sy : Shape) (hw : WellFormed b sx sy) (M : Nat → MIndex → MIndex → R)
    (D : MIndex → MIndex → R) (hD : IsBlockMatrix b sx sy M D) (ts : List (Operand R)) (hl : ts.length = b.operands.length)
    (hM : IsMatrices (b.transpose ts) sy sx (fun i k l => M i l k)) (x y tmp : Nat) (hxy : x ≠ y)
    (htx : tmp ≠ x) (hty : tmp ≠ y) (oks : List Bool) (ho : oks.length = b.operands.length) (m : Mem R) :
    ∃ m', (b.transpose ts).direct (· + ·) sy sx x y tmp oks m = some m' ∧
      (∀ k, inShape sx k = true → m' y k = ∑ k' ∈ indices sy, D k' k * m x k') ∧
      ∀ k, inShape sy k = true → m' x k = m x k := by
  have hw' : WellFormed (b.transpose ts) sy sx := by
    constructor
    · intro h
      have h' : ts = [] := h
      apply hw.blocks
      rw [← List.length_eq_zero_iff, ← hl, h']; rfl
    · exact hw.axes.symm
    · intro a ha
      obtain ⟨h1, h2⟩ := hw.lenout a ha
      exact ⟨h1.trans hl.symm, h2⟩
    · intro a ha
      obtain ⟨h1, h2⟩ := hw.lenin a ha
      exact ⟨h1.trans hl.symm, h2⟩
  exact C23_matrix (b.transpose ts) sy sx hw' _ hM _ (transpose_matrix b ts hl sx sy M D hD) x y tmp hxy htx hty oks
    (ho.trans hl.symm) m

end Verif.Block
