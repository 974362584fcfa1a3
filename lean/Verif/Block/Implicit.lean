import Verif.Block.FuseMore

/-
Model of the resolution of implicit partitions: src/pyoperators/core.py:3695-3709 (block diagonal), 3783-3793 (block column) and 3868-3877
(block row), and property C25.
-/

namespace Verif.Block

open Verif.Shape

variable {R : Type}

/-- An entry of a resolved partition: an integer or a tuple of integers. -/
inductive Entry where
  | int (n : Nat)
  | tuple (ns : List Nat)
deriving DecidableEq, Repr

/-- `shape[axis]`, `none` being the IndexError. -/
def getDim (s : Shape) (a : Int) : Option Nat :=
  if -(s.length : Int) ≤ a ∧ a < s.length then s[pyIndex s.length a]? else none

/-- One entry of the loop of `BlockColumnOperator.direct` (src/pyoperators/core.py:3786-3791) and of `BlockRowOperator.direct`
(3871-3876): `tointtuple(shape[axis])`, where `tointtuple` makes a tuple of one element from an integer
(src/pyoperators/utils/misc.py:1144-1151).  `s` is the shape given by reshapein or reshapeout. -/
def resolveEntry (a : Int) (p : Option Nat) (s : Shape) : Option Entry :=
  match p with
  | some n => some (.int n)
  | none => (getDim s a).map (fun d => .tuple [d])

/-- One entry of the loop of `BlockDiagonalOperator.direct` (src/pyoperators/core.py:3698-3707): `tointtuple(shape)[axis]`. -/
def resolveDiagEntry (a : Int) (p : Option Nat) (s : Shape) : Option Entry :=
  match p with
  | some n => some (.int n)
  | none => (getDim s a).map .int

/-- The resolved entries. -/
def resolveEntries (f : Option Nat → Shape → Option Entry) : List (Option Nat) → List Shape → Option (List Entry)
  | p :: ps, s :: ss =>
    match f p s, resolveEntries f ps ss with
    | some e, some es => some (e :: es)
    | _, _ => none
  | _, _ => some []

/-- `dest + n`: `none` is the TypeError raised if n is a tuple (src/pyoperators/core.py:3345-3348). -/
def toInts : List Entry → Option (List Nat)
  | [] => some []
  | .int n :: es => (toInts es).map (n :: ·)
  | .tuple _ :: _ => none

/-- The operator whose partition is resolved for the evaluation of a block column: src/pyoperators/core.py:3784-3795. `sx` is the shape of
the input. `none` is an exception. -/
def BlockOp.resolvedColumn (ops : List (Operand R)) (partitionout : List (Option Nat)) (ax : Axis) (sx : Shape) : Option (BlockOp R) :=
  match (resolveEntries (resolveEntry ax.pos) partitionout (ops.map (fun o => o.reshapein sx))).bind toInts with
  | some p => some { operands := ops, partitionin := [], partitionout := p, axisin := none, axisout := some ax }
  | none => none

/-- The same for a block row: src/pyoperators/core.py:3869-3879.  `reshapeouts` are the methods reshapeout of the operands and `sy`
is the shape of the output. -/
def BlockOp.resolvedRow (ops : List (Operand R)) (reshapeouts : List (Shape → Shape)) (partitionin : List (Option Nat)) (ax : Axis)
    (sy : Shape) : Option (BlockOp R) :=
  match (resolveEntries (resolveEntry ax.pos) partitionin (reshapeouts.map (fun f => f sy))).bind toInts with
  | some p => some { operands := ops, partitionin := p, partitionout := [], axisin := some ax, axisout := none }
  | none => none

/-- `shapein[self.axisin] = self.partitionin[i]`: src/pyoperators/core.py:3705-3706. -/
def setDim (s : Shape) (a : Int) (n : Nat) : Shape := s.set (pyIndex s.length a) n

/-- The same for a block diagonal operator along existing axes, whose input partition is known: src/pyoperators/core.py:3695-3709. -/
def BlockOp.resolvedDiag (ops : List (Operand R)) (partitionin : List Nat) (partitionout : List (Option Nat)) (ai ao : Int)
    (sx : Shape) : Option (BlockOp R) :=
  match (resolveEntries (resolveDiagEntry ao) partitionout
      (List.zipWith (fun o n => o.reshapein (setDim sx ai n)) ops partitionin)).bind toInts with
  | some p => some { operands := ops, partitionin := partitionin, partitionout := p, axisin := some (.axis ai),
                     axisout := some (.axis ao) }
  | none => none

theorem toInts_tuple (f : Option Nat → Shape → Option Entry) (hf : ∀ s e, f none s = some e → ∃ ns, e = .tuple ns)
    (ps : List (Option Nat)) (ss : List Shape) (hl : ps.length = ss.length) (hn : none ∈ ps) :
    (resolveEntries f ps ss).bind toInts = none := by
  induction ps generalizing ss with
  | nil => simp at hn
  | cons p ps ih =>
    cases ss with
    | nil => simp at hl
    | cons s ss =>
      simp only [resolveEntries]
      cases h1 : f p s with
      | none => rfl
      | some e =>
        cases h2 : resolveEntries f ps ss with
        | none => rfl
        | some es =>
          simp only [Option.bind_some]
          cases p with
          | none =>
            obtain ⟨ns, rfl⟩ := hf s e h1
            rfl
          | some n =>
            have hn' : none ∈ ps := by simpa using hn
            have := ih ss (by simpa using hl) hn'
            rw [h2, Option.bind_some] at this
            cases e with
            | tuple ns => rfl
            | int n => simp [toInts, this]

/-- C25 is violated by the code: a block column or a block row operator that has a block without explicit shape along the axis of
its partition raises an exception for any input. -/
theorem C25_fails (ops : List (Operand R)) (reshapeouts : List (Shape → Shape)) (partition : List (Option Nat)) (a : Int)
    (hl : partition.length = ops.length) (hr : reshapeouts.length = ops.length) (hn : none ∈ partition) (s : Shape) :
    BlockOp.resolvedColumn ops partition (.axis a) s = none ∧ BlockOp.resolvedRow ops reshapeouts partition (.axis a) s = none := by
  have hf : ∀ s e, resolveEntry a none s = some e → ∃ ns, e = .tuple ns := by
    intro s e h
    simp only [resolveEntry, Option.map_eq_some_iff] at h
    obtain ⟨d, _, rfl⟩ := h
    exact ⟨_, rfl⟩
  constructor
  · unfold BlockOp.resolvedColumn
    rw [show (Axis.axis a).pos = a from rfl, toInts_tuple (resolveEntry a) hf partition _ (by simp [hl]) hn]
  · unfold BlockOp.resolvedRow
    rw [show (Axis.axis a).pos = a from rfl, toInts_tuple (resolveEntry a) hf partition _ (by simp [hl, hr]) hn]

/-- The block column of two operators without explicit shape, along the axis 0: the partition is unknown. -/
example : BlockOp.resolvedColumn (R := Int) [{ fn := fun _ x => x }, { fn := fun _ x k => 2 * x k }] [none, none] (.axis 0) [3] =
    none := (C25_fails _ [id, id] _ 0 rfl rfl List.mem_cons_self _).1

theorem resolve_int (f : Option Nat → Shape → Option Entry) (hf : ∀ n s, f (some n) s = some (.int n)) (ps : List Nat)
    (ss : List Shape) (hl : ps.length = ss.length) : (resolveEntries f (ps.map some) ss).bind toInts = some ps := by
  induction ps generalizing ss with
  | nil => rfl
  | cons p ps ih =>
    cases ss with
    | nil => simp at hl
    | cons s ss =>
      have := ih ss (by simpa using hl)
      obtain ⟨es, h1, h2⟩ := Option.bind_eq_some_iff.mp this
      simp only [List.map_cons, resolveEntries, hf, h1, Option.bind_some, toInts, h2, Option.map_some]

/-- C25 (partial).  A block column or row operator whose partition is known can be evaluated with this partition, and C23_matrix applies.
Missing: the partitions that are not known (C25_fails). -/
theorem C25_known_partial [Semiring R] (ops : List (Operand R)) (reshapeouts : List (Shape → Shape)) (partition : List Nat) (ax : Axis)
    (row : Bool) (hl : partition.length = ops.length) (hr : reshapeouts.length = ops.length) (hne : ops ≠ []) (sx sy : Shape)
    (hfit : Fits partition ax (if row then sx else sy)) :
    ∃ b : BlockOp R, (if row then BlockOp.resolvedRow ops reshapeouts (partition.map some) ax sy
        else BlockOp.resolvedColumn ops (partition.map some) ax sx) = some b ∧ WellFormed b sx sy ∧
      ∀ (M : Nat → MIndex → MIndex → R) (D : MIndex → MIndex → R), IsMatrices b sx sy M → IsBlockMatrix b sx sy M D →
        ∀ (x y tmp : Nat), x ≠ y → tmp ≠ x → tmp ≠ y → ∀ (oks : List Bool), oks.length = ops.length → ∀ m : Mem R,
          ∃ m', b.direct (· + ·) sx sy x y tmp oks m = some m' ∧
            ∀ k, inShape sy k = true → m' y k = ∑ k' ∈ indices sx, D k k' * m x k' := by
  cases row with
  | true =>
    have hfit' : Fits partition ax sx := hfit
    have e : (resolveEntries (resolveEntry ax.pos) (partition.map some) (reshapeouts.map (fun f => f sy))).bind toInts =
        some partition := resolve_int _ (fun _ _ => rfl) _ _ (by simp [hl, hr])
    have hw : WellFormed (R := R) { operands := ops, partitionin := partition, partitionout := [], axisin := some ax, axisout := none }
        sx sy := ⟨hne, by simp, fun a ha => by cases ha; exact ⟨hl, hfit'⟩, fun a ha => by cases ha⟩
    refine ⟨_, by simp only [if_true, BlockOp.resolvedRow, e], hw, ?_⟩
    intro M D hM hD x y tmp h1 h2 h3 oks ho m
    obtain ⟨m', e1, e2, _⟩ := C23_matrix _ sx sy hw M hM D hD x y tmp h1 h2 h3 oks ho m
    exact ⟨m', e1, e2⟩
  | false =>
    have hfit' : Fits partition ax sy := hfit
    have e : (resolveEntries (resolveEntry ax.pos) (partition.map some) (ops.map (fun o => o.reshapein sx))).bind toInts =
        some partition := resolve_int _ (fun _ _ => rfl) _ _ (by simp [hl])
    have hw : WellFormed (R := R) { operands := ops, partitionin := [], partitionout := partition, axisin := none, axisout := some ax }
        sx sy := ⟨hne, by simp, fun a ha => (by cases ha), fun a ha => by cases ha; exact ⟨hl, hfit'⟩⟩
    refine ⟨_, by simp only [Bool.false_eq_true, if_false, BlockOp.resolvedColumn, e], hw, ?_⟩
    intro M D hM hD x y tmp h1 h2 h3 oks ho m
    obtain ⟨m', e1, e2, _⟩ := C23_matrix _ sx sy hw M hM D hD x y tmp h1 h2 h3 oks ho m
    exact ⟨m', e1, e2⟩

theorem resolve_diag (a : Int) (ps : List (Option Nat)) (ss : List Shape) (ds : List Nat) (hl : ps.length = ds.length)
    (hs : ss.length = ds.length) (hd : ∀ (i : Nat) (s : Shape) (d : Nat), ss[i]? = some s → ds[i]? = some d → getDim s a = some d)
    (hp : ∀ (i n d : Nat), ps[i]? = some (some n) → ds[i]? = some d → n = d) :
    (resolveEntries (resolveDiagEntry a) ps ss).bind toInts = some ds := by
  induction ps generalizing ss ds with
  | nil =>
    have : ds = [] := by simpa using hl.symm
    subst this; rfl
  | cons p ps ih =>
    cases ss with
    | nil => simp at hs hl; omega
    | cons s ss =>
      cases ds with
      | nil => simp at hl
      | cons d ds =>
        have := ih ss ds (by simpa using hl) (by simpa using hs)
          (fun i s d h1 h2 => hd (i + 1) s d (by simpa using h1) (by simpa using h2))
          (fun i n d h1 h2 => hp (i + 1) n d (by simpa using h1) (by simpa using h2))
        obtain ⟨es, h1, h2⟩ := Option.bind_eq_some_iff.mp this
        have he : resolveDiagEntry a p s = some (.int d) := by
          cases p with
          | none => simp [resolveDiagEntry, hd 0 s d rfl rfl]
          | some n => rw [hp 0 n d rfl rfl]; rfl
        simp only [resolveEntries, he, h1, Option.bind_some, toInts, h2, Option.map_some]

/-- C25 (partial).  The unknown entries of the output partition of a block diagonal operator along existing axes are resolved: they are
the dimensions of the outputs of the blocks. -/
theorem C25_diagonal_partial (ops : List (Operand R)) (partitionin : List Nat) (partitionout : List (Option Nat)) (ai ao : Int)
    (sx : Shape) (ds : List Nat) (h1 : partitionin.length = ops.length) (h2 : partitionout.length = ops.length)
    (h3 : ds.length = ops.length)
    (hd : ∀ (i : Nat) (o : Operand R) (n d : Nat), ops[i]? = some o → partitionin[i]? = some n → ds[i]? = some d →
      getDim (o.reshapein (sx.set (pyIndex sx.length ai) n)) ao = some d)
    (hp : ∀ (i n d : Nat), partitionout[i]? = some (some n) → ds[i]? = some d → n = d) :
    BlockOp.resolvedDiag ops partitionin partitionout ai ao sx =
      some { operands := ops, partitionin := partitionin, partitionout := ds, axisin := some (.axis ai), axisout := some (.axis ao) } := by
  unfold BlockOp.resolvedDiag
  rw [resolve_diag ao partitionout _ ds (by omega) (by simp; omega) ?_ hp]
  intro i s d hs hds
  rw [List.getElem?_zipWith] at hs
  cases ho : ops[i]? with
  | none => simp [ho] at hs
  | some o =>
    cases hn : partitionin[i]? with
    | none => simp [ho, hn] at hs
    | some n =>
      simp only [ho, hn, Option.some.injEq] at hs
      rw [← hs]
      exact hd i o n d ho hn hds

/-- Hypotheses of C25_diagonal_partial. -/
example : BlockOp.resolvedDiag [{ fn := fun _ x => x }, { fn := fun _ x => x }] [2, 3] [none, some 3] (-1) (-1) [4, 5] =
    some ({ operands := [{ fn := fun _ x => x }, { fn := fun _ x => x }], partitionin := [2, 3], partitionout := [2, 3],
            axisin := some (.axis (-1)), axisout := some (.axis (-1)) } : BlockOp Int) := by rfl

end Verif.Block
