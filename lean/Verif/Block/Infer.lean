import Verif.Block.Implicit

/-
Model of the shapes and partitions of block operators: src/pyoperators/core.py:3190-3259 (`_get_partitionin`, `_get_partitionout`), 3263-3311
(`_get_shape_composite`), 3313-3331 (`_get_shape_operands`), 3369-3395 (`reshapein`, `reshapeout`) and 2912-2916 (block operators of a single
operand), and properties C62 and C63.
-/

namespace Verif.Block

open Verif.Shape

variable {R : Type}

/-! ### Shapes -/

/-- The outcome of a function that can raise a ValueError or return None. -/
inductive Outcome where
  | error
  | unknown
  | shape (s : Shape)
deriving DecidableEq, Repr

/-- The shape of the operator along a new axis: src/pyoperators/core.py:3276-3279. -/
def insertAxis (s : Shape) (a : Int) (n : Nat) : Shape :=
  let b := if a < 0 then (a + s.length + 1).toNat else a.toNat
  s.take b ++ n :: s.drop b

/-- The dimensions are the same, except along the axis: src/pyoperators/core.py:3297-3306. -/
def sameExcept (a : Nat) (s t : Shape) : Bool :=
  (List.range s.length).all (fun i => i == a || s[i]? == t[i]?)

/-- `_get_shape_composite`: src/pyoperators/core.py:3263-3311.  The axis is assumed to exist (otherwise an IndexError is
raised). -/
def getShapeComposite (shapes : List (Option Shape)) (p : Partition) (ax : Option Axis) : Outcome :=
  match shapes.filterMap id with
  | [] => .unknown
  | shape :: rest =>
    match p, ax with
    | some p, some (.axis a) =>
      if rest.any (fun s => s.length ≠ shape.length) then .error
      else if (p.zip shapes).any (fun q =>
          match q with
          | (some n, some s) => getDim s a ≠ some n
          | _ => false) then .error
      else if rest.any (fun s => !sameExcept (pyIndex shape.length a) shape s) then .error
      else
        match mergeNone p (shapes.map (fun s => s.bind (fun s => getDim s a))) with
        | none => .error
        | some q =>
          match mapOpt id q with
          | none => .unknown
          | some q => .shape (setDim shape a q.sum)
    | some p, some (.newAxis a) => if rest.any (fun s => s ≠ shape) then .error else .shape (insertAxis shape a p.length)
    | _, _ => if rest.any (fun s => s ≠ shape) then .error else .shape shape

/-- `_get_shape_operands`: src/pyoperators/core.py:3313-3331, for a known shape and a known partition (otherwise the shapes of the operands are
unknown).  `n` is the number of operands. -/
def getShapeOperands (shape : Shape) (p : List Nat) (ax : Option Axis) (n : Nat) : List Shape :=
  match ax with
  | none => List.replicate n shape
  | some (.newAxis a) => List.replicate p.length (shape.eraseIdx (pyIndex shape.length a))
  | some (.axis a) => p.map (fun m => setDim shape a m)

/-- `reshapein`: src/pyoperators/core.py:3369-3380, for known partitions. -/
def BlockOp.reshapein (b : BlockOp R) (sx : Shape) : Outcome :=
  getShapeComposite
    (List.zipWith (fun o s => some (o.reshapein s)) b.operands (getShapeOperands sx b.partitionin b.axisin b.operands.length))
    (b.axisout.map (fun _ => b.partitionout.map some)) b.axisout

/-- A block operator with a single operand is a copy of this operand: src/pyoperators/core.py:2912-2916. -/
def construct (b : BlockOp R) : BlockOp R ⊕ Operand R :=
  match b.operands with
  | [o] => .inr o
  | _ => .inl b

/-- The method reshapein of the operator that is constructed. -/
def constructedReshapein (b : BlockOp R) (sx : Shape) : Outcome :=
  match construct b with
  | .inl b => b.reshapein sx
  | .inr o => .shape (o.reshapein sx)

theorem getDim_of_fits {ps : List Nat} {ax : Axis} {s : Shape} (h : Fits ps ax s) : getDim s ax.pos = some ps.sum := by
  unfold getDim
  rw [if_pos ⟨h.lower, h.upper⟩]
  exact h.total

theorem setDim_self {s : Shape} {a : Int} {n : Nat} (h : getDim s a = some n) : setDim s a n = s := by
  unfold getDim at h
  split at h
  · obtain ⟨h1, h2⟩ := List.getElem?_eq_some_iff.mp h
    unfold setDim
    rw [← h2]
    exact List.set_getElem_self h1
  · cases h

theorem getDim_setDim {s : Shape} {a : Int} {n m : Nat} (h : getDim s a = some n) : getDim (setDim s a m) a = some m := by
  unfold getDim at h
  split at h
  · rename_i hc
    obtain ⟨h1, _⟩ := List.getElem?_eq_some_iff.mp h
    unfold getDim setDim
    rw [List.length_set, if_pos hc, List.getElem?_set_self h1]
  · cases h

theorem mapOpt_eq_some (p : List (Option Nat)) (q : List Nat) : mapOpt id p = some q ↔ p = q.map some := by
  constructor
  · intro h
    induction p generalizing q with
    | nil => simp [mapOpt] at h; subst h; rfl
    | cons a p ih =>
      simp only [mapOpt] at h
      cases a with
      | none => simp at h
      | some a =>
        cases hp : mapOpt id p with
        | none => simp [hp] at h
        | some r =>
          simp only [id_eq, hp, Option.some.injEq] at h
          rw [← h, ih r hp]; rfl
  · rintro rfl; exact mapOpt_some q

theorem parts_eq_operands (ps : List Nat) (ax : Axis) (s : Shape) (h : Fits ps ax s) :
    (List.range ps.length).map (partShape s (getSlices ps ax)) = getShapeOperands s ps (some ax) ps.length := by
  apply List.ext_getElem?
  intro i
  by_cases hi : i < ps.length
  · obtain ⟨n, h1, h2⟩ := (C22_parts ps ax s h).2 i _ (getD_getSlices h hi)
    have hs : partShape s (getSlices ps ax) i = _ := h2
    rw [List.getElem?_map, List.getElem?_range hi]
    simp only [Option.map_some, hs]
    cases ax with
    | axis a => simp [getShapeOperands, h1, setDim, Axis.pos]
    | newAxis a => simp [getShapeOperands, hi, Axis.pos, List.getElem?_replicate]
  · rw [List.getElem?_eq_none (by simpa using hi), List.getElem?_eq_none]
    cases ax <;> simp [getShapeOperands] <;> omega

theorem insert_erase (s : Shape) (a : Int) (n : Nat) (h : getDim s a = some n) :
    insertAxis (s.eraseIdx (pyIndex s.length a)) a n = s := by
  unfold getDim at h
  split at h
  · rename_i hc
    obtain ⟨h1, h2⟩ := List.getElem?_eq_some_iff.mp h
    have hb : (if a < 0 then (a + (s.eraseIdx (pyIndex s.length a)).length + 1).toNat else a.toNat) = pyIndex s.length a := by
      rw [List.length_eraseIdx_of_lt h1]
      unfold pyIndex
      split <;> split <;> omega
    unfold insertAxis
    simp only
    rw [hb]
    generalize pyIndex s.length a = i at *
    subst h2
    clear hb hc h
    induction s generalizing i with
    | nil => simp at h1
    | cons d s ih =>
      cases i with
      | zero => simp
      | succ i =>
        simp only [List.eraseIdx_cons_succ, List.take_succ_cons, List.drop_succ_cons, List.cons_append, List.getElem_cons_succ]
        rw [ih i (by simpa using h1)]
  · cases h

theorem mergeNone_self_known (p : List Nat) : mergeNone (p.map some) (p.map some) = some (p.map some) := C21_idempotent _

/-- C62.  The shape of an array is recovered from the shapes of its parts. -/
theorem C62_composite (ps : List Nat) (ax : Axis) (s : Shape) (h : Fits ps ax s) (hne : ps ≠ []) :
    getShapeComposite ((getShapeOperands s ps (some ax) ps.length).map some) (some (ps.map some)) (some ax) = .shape s := by
  have hd := getDim_of_fits h
  have hfm : ∀ l : List Shape, (l.map some).filterMap id = l := by
    intro l; induction l with
    | nil => rfl
    | cons a l ih => simp
  unfold getShapeComposite
  rw [hfm]
  cases ps with
  | nil => exact absurd rfl hne
  | cons p ps =>
    cases ax with
    | newAxis a =>
      simp only [getShapeOperands, List.length_cons, List.replicate_succ]
      have hrest : (List.replicate ps.length (s.eraseIdx (pyIndex s.length a))).any
          (fun t => t ≠ s.eraseIdx (pyIndex s.length a)) = false := by
        rw [List.any_eq_false]
        intro t ht
        simp [List.eq_of_mem_replicate ht]
      rw [if_neg (by rw [hrest]; simp)]
      congr 1
      have hsum : (p :: ps).sum = (p :: ps).length := by
        have : ∀ q : List Nat, (∀ x ∈ q, x = 1) → q.sum = q.length := by
          intro q hq
          induction q with
          | nil => rfl
          | cons x q ih => simp [hq x (by simp), ih (fun p hp => hq p (by simp [hp]))]; omega
        exact this _ (h.ones a rfl)
      simp only [Axis.pos, hsum] at hd
      have := insert_erase s a _ hd
      simpa using this
    | axis a =>
      simp only [Axis.pos] at hd
      simp only [getShapeOperands, List.map_cons]
      have hlen : ∀ m, (setDim s a m).length = s.length := by intro m; simp [setDim]
      have c1 : (ps.map (fun m => setDim s a m)).any (fun t => t.length ≠ (setDim s a p).length) = false := by
        rw [List.any_eq_false]
        intro t ht
        obtain ⟨m, _, rfl⟩ := List.mem_map.mp ht
        simp [hlen]
      have c2 : ((some p :: ps.map some).zip (some (setDim s a p) :: (ps.map (fun m => setDim s a m)).map some)).any (fun q =>
          match q with
          | (some n, some s) => getDim s a ≠ some n
          | _ => false) = false := by
        have : ∀ q : List Nat, ((q.map some).zip ((q.map (fun m => setDim s a m)).map some)).any (fun q =>
          match q with
          | (some n, some s) => getDim s a ≠ some n
          | _ => false) = false := by
          intro q
          induction q with
          | nil => rfl
          | cons m q ih =>
            simp only [List.map_cons, List.zip_cons_cons, List.any_cons, ih, Bool.or_false]
            simp [getDim_setDim hd]
        simpa using this (p :: ps)
      have c3 : (ps.map (fun m => setDim s a m)).any
          (fun t => !sameExcept (pyIndex (setDim s a p).length a) (setDim s a p) t) = false := by
        rw [List.any_eq_false]
        intro t ht
        obtain ⟨m, _, rfl⟩ := List.mem_map.mp ht
        simp only [Bool.not_eq_true, Bool.not_eq_false', sameExcept, List.all_eq_true, List.mem_range, Bool.or_eq_true, beq_iff_eq]
        intro i _
        by_cases hi : i = pyIndex (setDim s a p).length a
        · exact Or.inl hi
        · right
          rw [hlen] at hi
          simp only [setDim]
          rw [List.getElem?_set_ne (fun e => hi e.symm), List.getElem?_set_ne (fun e => hi e.symm)]
      rw [if_neg (by rw [c1]; simp), if_neg (by rw [c2]; simp), if_neg (by rw [c3]; simp)]
      have hm : ((some (setDim s a p)).bind fun s => getDim s a) ::
          ((ps.map (fun m => setDim s a m)).map some).map (fun s => s.bind (fun s => getDim s a)) = (p :: ps).map some := by
        simp only [List.map_cons, List.map_map, Option.bind_some, getDim_setDim hd, List.cons.injEq, true_and]
        apply List.map_congr_left
        intro m _
        simp [getDim_setDim hd]
      rw [hm, show some p :: ps.map some = (p :: ps).map some from rfl, mergeNone_self_known]
      simp only [mapOpt_some]
      congr 1
      have : setDim (setDim s a p) a (p :: ps).sum = setDim s a (p :: ps).sum := by
        simp only [setDim, List.length_set, List.set_set]
      rw [this]
      exact setDim_self hd

/-- C62.  The output shape of a block operator is the shape whose parts are the output shapes of the blocks. -/
theorem C62_reshapein (b : BlockOp R) (sx sy : Shape) (hw : WellFormed b sx sy)
    (hs : ∀ (i : Nat) (op : Operand R), b.operands[i]? = some op → op.reshapein (b.inputShape sx i) = b.outputShape sy i) :
    b.reshapein sx = .shape sy := by
  have hins : getShapeOperands sx b.partitionin b.axisin b.operands.length =
      (List.range b.operands.length).map (b.inputShape sx) := by
    cases hai : b.axisin with
    | none =>
      simp only [getShapeOperands]
      have hin : b.inputShape sx = fun _ => sx := by funext i; simp only [BlockOp.inputShape, hai]
      rw [hin]
      apply List.ext_getElem?
      intro i
      by_cases hi : i < b.operands.length
      · rw [List.getElem?_replicate, if_pos hi, List.getElem?_map, List.getElem?_range hi]; rfl
      · rw [List.getElem?_eq_none (by simpa using hi), List.getElem?_eq_none (by simpa using hi)]
    | some a =>
      obtain ⟨h1, h2⟩ := hw.lenin a hai
      have := parts_eq_operands _ _ _ h2
      have e : ∀ n, getShapeOperands sx b.partitionin (some a) n = getShapeOperands sx b.partitionin (some a) b.partitionin.length := by
        intro n; cases a <;> rfl
      have hin : b.inputShape sx = partShape sx (getSlices b.partitionin a) := by funext i; simp only [BlockOp.inputShape, hai]
      rw [e, ← this, h1, hin]
  have houts : List.zipWith (fun o s => some (o.reshapein s)) b.operands
      (getShapeOperands sx b.partitionin b.axisin b.operands.length) =
      ((List.range b.operands.length).map (b.outputShape sy)).map some := by
    rw [hins]
    apply List.ext_getElem?
    intro i
    by_cases hi : i < b.operands.length
    · have g := List.getElem?_eq_getElem hi
      rw [List.getElem?_zipWith, g]
      simp only [List.getElem?_map, List.getElem?_range hi, Option.map_some]
      rw [hs i _ g]
    · rw [List.getElem?_eq_none (by simp; omega), List.getElem?_eq_none (by simp; omega)]
  unfold BlockOp.reshapein
  rw [houts]
  cases hao : b.axisout with
  | some a =>
    obtain ⟨h1, h2⟩ := hw.lenout a hao
    have h3 := parts_eq_operands _ _ _ h2
    have h4 := C62_composite _ _ _ h2 (by
      intro h; apply hw.blocks; rw [← List.length_eq_zero_iff, ← h1, h]; rfl)
    rw [← h3] at h4
    simp only [Option.map_some]
    have hout : b.outputShape sy = partShape sy (getSlices b.partitionout a) := by funext i; simp only [BlockOp.outputShape, hao]
    rw [← h4, h1, hout]
  | none =>
    have hfm : ∀ l : List Shape, (l.map some).filterMap id = l := by
      intro l; induction l with
      | nil => rfl
      | cons a l ih => simp
    have : (List.range b.operands.length).map (b.outputShape sy) = List.replicate b.operands.length sy := by
      have hout : b.outputShape sy = fun _ => sy := by funext i; simp only [BlockOp.outputShape, hao]
      rw [hout]
      apply List.ext_getElem?
      intro i
      by_cases hi : i < b.operands.length
      · rw [List.getElem?_replicate, if_pos hi, List.getElem?_map, List.getElem?_range hi]; rfl
      · rw [List.getElem?_eq_none (by simpa using hi), List.getElem?_eq_none (by simpa using hi)]
    rw [this]
    unfold getShapeComposite
    rw [hfm]
    cases hn : b.operands.length with
    | zero => exact absurd (List.length_eq_zero_iff.mp hn) hw.blocks
    | succ n =>
      simp only [List.replicate_succ, Option.map_none]
      have hrest : (List.replicate n sy).any (fun t => t ≠ sy) = false := by
        rw [List.any_eq_false]
        intro t ht
        simp [List.eq_of_mem_replicate ht]
      rw [if_neg (by rw [hrest]; simp)]

/-- C62.  Blocks whose numbers of dimensions differ, whose dimensions differ along another axis than the one of the partition or differ from the
partition along this axis are rejected. -/
theorem C62_rejected (shapes : List Shape) (p : List Nat) (a : Int) (i j : Nat) (s t : Shape) (hi : shapes[i]? = some s)
    (hj : shapes[j]? = some t) (hl : p.length = shapes.length)
    (h : s.length ≠ t.length ∨ (s.length = t.length ∧ ∃ k, k ≠ pyIndex s.length a ∧ s[k]? ≠ t[k]?) ∨
      ∃ n, p[i]? = some n ∧ getDim s a ≠ some n) :
    getShapeComposite (shapes.map some) (some (p.map some)) (some (.axis a)) = .error := by
  have hfm : ∀ l : List Shape, (l.map some).filterMap id = l := by
    intro l; induction l with
    | nil => rfl
    | cons a l ih => simp
  unfold getShapeComposite
  rw [hfm]
  cases shapes with
  | nil => simp at hi
  | cons s0 rest =>
    simp only
    by_cases c1 : rest.any (fun s => s.length ≠ s0.length) = true
    · rw [if_pos c1]
    · rw [if_neg c1]
      have hlen : ∀ u ∈ s0 :: rest, u.length = s0.length := by
        intro u hu
        rcases List.mem_cons.mp hu with rfl | hu
        · rfl
        · by_contra hc
          apply c1
          rw [List.any_eq_true]
          exact ⟨u, hu, by simpa using hc⟩
      split
      · rfl
      · rename_i c2
        have c3 : rest.any (fun s => !sameExcept (pyIndex s0.length a) s0 s) = true := by
          rcases h with h | ⟨_, k, hk, hne⟩ | ⟨n, hn, hne⟩
          · exact absurd ((hlen s (List.mem_of_getElem? hi)).trans (hlen t (List.mem_of_getElem? hj)).symm) h
          · by_contra hc
            rw [List.any_eq_true] at hc
            push Not at hc
            have same : ∀ u ∈ s0 :: rest, u[k]? = s0[k]? := by
              intro u hu
              have hul := hlen u hu
              rcases List.mem_cons.mp hu with rfl | hu
              · rfl
              · have := hc u hu
                simp only [ne_eq, Bool.not_eq_true, Bool.not_eq_false', sameExcept, List.all_eq_true, List.mem_range, Bool.or_eq_true,
                  beq_iff_eq] at this
                by_cases hkl : k < s0.length
                · rcases this k hkl with e | e
                  · rw [hlen s (List.mem_of_getElem? hi)] at hk; exact absurd e hk
                  · exact e.symm
                · rw [List.getElem?_eq_none (by omega), List.getElem?_eq_none (by omega)]
            exact hne ((same s (List.mem_of_getElem? hi)).trans (same t (List.mem_of_getElem? hj)).symm)
          · exfalso
            apply c2
            rw [List.any_eq_true]
            refine ⟨(some n, some s), ?_, by simpa using hne⟩
            rw [List.mem_iff_getElem?]
            refine ⟨i, ?_⟩
            rw [List.getElem?_zip_eq_some]
            refine ⟨by simp [hn], ?_⟩
            have : ((s0 :: rest).map some)[i]? = some (some s) := by rw [List.getElem?_map, hi]; rfl
            exact this
        rw [if_pos c3]

/-- A block diagonal operator with a single block. -/
def singleBlock : BlockOp Int :=
  { operands := [{ fn := fun _ x => x }], partitionin := [], partitionout := [1], axisin := none, axisout := some (.newAxis 0) }

/-- C62 fails for a single operand: the new axis is missing. -/
theorem C62_single_fails : WellFormed singleBlock [3] [1, 3] ∧ singleBlock.reshapein [3] = .shape [1, 3] ∧
    constructedReshapein singleBlock [3] = .shape [3] := by
  refine ⟨⟨by simp [singleBlock], by simp [singleBlock], ?_, ?_⟩, by decide, rfl⟩
  · rintro a ha; cases ha
  · rintro a ha; cases ha; exact ⟨rfl, ⟨by decide, by decide, rfl, by simp [singleBlock]⟩⟩

/-- C62 (partial).  The operator that is constructed has the output shape of the assembled blocks if there are several blocks. Missing: a single
block (C62_single_fails). -/
theorem C62_constructed_partial (b : BlockOp R) (hb : b.operands.length ≠ 1) (sx sy : Shape) (hw : WellFormed b sx sy)
    (hs : ∀ (i : Nat) (op : Operand R), b.operands[i]? = some op → op.reshapein (b.inputShape sx i) = b.outputShape sy i) :
    constructedReshapein b sx = .shape sy := by
  unfold constructedReshapein construct
  have := C62_reshapein b sx sy hw hs
  cases h : b.operands with
  | nil => exact absurd h hw.blocks
  | cons o os =>
    cases os with
    | nil => rw [h] at hb; simp at hb
    | cons o2 os => exact this

/-- The hypotheses of the theorems. -/
example : getShapeComposite [some [4, 2], some [4, 3]] (some [some 2, some 3]) (some (.axis (-1))) = .shape [4, 5] ∧
    getShapeComposite [some [4, 2], some [5, 3]] (some [some 2, some 3]) (some (.axis (-1))) = .error ∧
    getShapeOperands [4, 5] [2, 3] (some (.axis (-1))) 2 = [[4, 2], [4, 3]] ∧
    getShapeComposite [some [4, 2], none] (some [none, some 3]) (some (.axis (-1))) = .shape [4, 5] := by decide

/-! ### Partitions -/

/-- The shapes that are tried: src/pyoperators/core.py:3236-3239 and 3249-3252. -/
def probes (ax : Axis) (n : Nat) : List Shape :=
  match ax with
  | .newAxis _ => (List.range 33).map (fun d => List.replicate d 0)
  | .axis a =>
    let ndimMin := if 0 ≤ a then a.toNat + 1 else (-a).toNat
    (List.range' ndimMin (33 - ndimMin)).map (fun d => setDim (List.replicate d 0) a n)

/-- The dimensions along the axis of the results: src/pyoperators/core.py:3253-3257.  `none` is an IndexError, raised by the
method reshapein or by the access to the dimension. -/
def probed (reshape : Shape → Option Shape) (axisin : Axis) (axisout : Int) (n : Nat) : List Nat :=
  (probes axisin n).filterMap (fun s => (reshape s).bind (fun t => getDim t axisout))

/-- One entry of the partition inferred for an operator: its explicit shape along the axis, or the common value of the dimensions of the
results (src/pyoperators/core.py:3241-3261). -/
def inferEntry (shape : Option Shape) (reshape : Shape → Option Shape) (axisin : Axis) (axisout : Int) (p : Option Nat) : Option Nat :=
  match shape with
  | some s => getDim s axisout
  | none =>
    match p with
    | none => none
    | some n =>
      match probed reshape axisin axisout n with
      | [] => none
      | d :: ds => if ds.any (fun e => e ≠ d) then none else some d

/-- C63 (partial).  If the output dimension of an operator along the output axis depends only on its input dimension along the input axis, the entry
of the partition that is inferred, if any, is this dimension.  Missing: the output dimension depends on the other
dimensions (C63_fails). -/
theorem C63_inferred_partial (reshape : Shape → Option Shape) (ai : Int) (axisout : Int) (f : Nat → Nat)
    (hf : ∀ (s t : Shape) (n d : Nat), getDim s ai = some n → reshape s = some t → getDim t axisout = some d → d = f n) (n d : Nat)
    (h : inferEntry none reshape (.axis ai) axisout (some n) = some d) : d = f n := by
  unfold inferEntry at h
  simp only at h
  cases hp : probed reshape (.axis ai) axisout n with
  | nil => simp [hp] at h
  | cons e es =>
    have hd : d = e := by
      rw [hp] at h
      simp only at h
      split at h
      · cases h
      · exact (Option.some.inj h).symm
    subst hd
    have hmem : d ∈ probed reshape (.axis ai) axisout n := by rw [hp]; simp
    unfold probed at hmem
    rw [List.mem_filterMap] at hmem
    obtain ⟨s, hs, he⟩ := hmem
    obtain ⟨t, ht, hdim⟩ := Option.bind_eq_some_iff.mp he
    refine hf s t n d ?_ ht hdim
    simp only [probes, List.mem_map, List.mem_range'_1] at hs
    obtain ⟨r, ⟨hr1, hr2⟩, rfl⟩ := hs
    have : getDim (List.replicate r 0) ai = some 0 := by
      unfold getDim
      rw [List.length_replicate]
      split at hr1
      · rename_i h0
        have e : pyIndex r ai = ai.toNat := if_pos h0
        rw [if_pos (by omega), List.getElem?_replicate, e, if_pos (by omega)]
      · rename_i h0
        have e : pyIndex r ai = (r + ai).toNat := if_neg h0
        rw [if_pos (by omega), List.getElem?_replicate, e, if_pos (by omega)]
    exact getDim_setDim this

theorem probe_dim (ai : Int) (n : Nat) (s : Shape) (hs : s ∈ probes (.axis ai) n) : getDim s ai = some n := by
  simp only [probes, List.mem_map, List.mem_range'_1] at hs
  obtain ⟨r, ⟨hr1, hr2⟩, rfl⟩ := hs
  have : getDim (List.replicate r 0) ai = some 0 := by
    unfold getDim
    rw [List.length_replicate]
    split at hr1
    · rename_i h0
      have e : pyIndex r ai = ai.toNat := if_pos h0
      rw [if_pos (by omega), List.getElem?_replicate, e, if_pos (by omega)]
    · rename_i h0
      have e : pyIndex r ai = (r + ai).toNat := if_neg h0
      rw [if_pos (by omega), List.getElem?_replicate, e, if_pos (by omega)]
  exact getDim_setDim this

/-- C63 (partial).  If moreover the operator accepts any number of dimensions, the entry is inferred. -/
theorem C63_found_partial (reshape : Shape → Option Shape) (ai : Int) (axisout : Int) (f : Nat → Nat) (hai : -32 ≤ ai ∧ ai < 32)
    (hf : ∀ (s : Shape) (n : Nat), getDim s ai = some n → ∃ t, reshape s = some t ∧ getDim t axisout = some (f n)) (n : Nat) :
    inferEntry none reshape (.axis ai) axisout (some n) = some (f n) := by
  have h1 : ∀ d ∈ probed reshape (.axis ai) axisout n, d = f n := by
    intro d hd
    unfold probed at hd
    rw [List.mem_filterMap] at hd
    obtain ⟨s, hs, he⟩ := hd
    obtain ⟨t, ht, hdim⟩ := hf s n (probe_dim ai n s hs)
    rw [ht, Option.bind_some, hdim] at he
    exact (Option.some.inj he).symm
  have h2 : probed reshape (.axis ai) axisout n ≠ [] := by
    have hne : ∃ s, s ∈ probes (.axis ai) n := by
      refine ⟨setDim (List.replicate 32 0) ai n, ?_⟩
      simp only [probes, List.mem_map, List.mem_range'_1]
      refine ⟨32, ?_, rfl⟩
      split <;> omega
    obtain ⟨s, hs⟩ := hne
    obtain ⟨t, ht, hdim⟩ := hf s n (probe_dim ai n s hs)
    intro he
    have : f n ∈ probed reshape (.axis ai) axisout n := by
      unfold probed
      rw [List.mem_filterMap]
      exact ⟨s, hs, by rw [ht, Option.bind_some, hdim]⟩
    rw [he] at this
    simp at this
  unfold inferEntry
  simp only
  cases hp : probed reshape (.axis ai) axisout n with
  | nil => exact absurd hp h2
  | cons d ds =>
    rw [hp] at h1
    simp only
    have hd : d = f n := h1 d (by simp)
    rw [if_neg, hd]
    simp only [List.any_eq_true, not_exists, not_and]
    intro e he
    simp [h1 e (by simp [he]), hd]

/-- The exchange of the first two axes. -/
def swapAxes : Shape → Option Shape
  | a :: b :: s => some (b :: a :: s)
  | _ => none

/-- C63 fails if the output dimension depends on another dimension: the first output dimension of an operator that exchanges the first two axes
is taken to be zero, whatever the shape of the input. -/
theorem C63_fails : inferEntry none swapAxes (.axis 0) 0 (some 2) = some 0 ∧
    (swapAxes [2, 5]).bind (fun t => getDim t 0) = some 5 := by decide

/-- Hypotheses of C63_found_partial: an operator that preserves the shapes. -/
example : inferEntry none some (.axis (-1)) (-1) (some 3) = some 3 ∧
    ∀ (s : Shape) (n : Nat), getDim s (-1) = some n → ∃ t, some s = some t ∧ getDim t (-1) = some (id n) :=
  ⟨by decide, fun s _ h => ⟨s, rfl, h⟩⟩

/-- Hypotheses of C63_inferred_partial: an operator that doubles the first dimension. -/
example : inferEntry none (fun s => match s with | a :: s => some (2 * a :: s) | [] => none) (.axis 0) 0 (some 3) = some 6 ∧
    ∀ (s t : Shape) (n d : Nat), getDim s 0 = some n → (match s with | a :: s => some (2 * a :: s) | [] => none) = some t →
      getDim t 0 = some d → d = 2 * n := by
  refine ⟨by decide, ?_⟩
  intro s t n d h1 h2 h3
  cases s with
  | nil => simp at h2
  | cons a s =>
    simp only [Option.some.injEq] at h2
    subst h2
    have e1 : a = n := by
      unfold getDim at h1
      split at h1
      · exact Option.some.inj h1
      · cases h1
    have e2 : 2 * a = d := by
      unfold getDim at h3
      split at h3
      · exact Option.some.inj h3
      · cases h3
    omega

end Verif.Block
