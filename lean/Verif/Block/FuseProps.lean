import Verif.Block.Fuse

/- Property C24: the fusions of block operators. -/

namespace Verif.Block

open Verif.Shape

variable {R : Type}

/-- The input of the block number i. -/
def BlockOp.blockInput [Zero R] (b : BlockOp R) (sx : Shape) (x : Arr R) (i : Nat) : Arr R :=
  match b.axisin with
  | some ai => view sx ((getSlices b.partitionin ai).getD i []) x
  | none => x

theorem blockResults_get [Zero R] {b : BlockOp R} {sx sy : Shape} (hw : WellFormed b sx sy) (x : Arr R) {i : Nat} {op : Operand R}
    (h : b.operands[i]? = some op) : (b.blockResults sx x)[i]? = some (op.fn (b.inputShape sx i) (b.blockInput sx x i)) := by
  unfold BlockOp.blockResults BlockOp.inputShape BlockOp.blockInput
  cases hai : b.axisin with
  | none => simp [h]
  | some ai =>
    obtain ⟨h1, h2⟩ := hw.lenin ai hai
    have := (C22_parts _ _ _ h2).1
    exact results_get sx x b.operands _ i op h (by omega)

theorem normalised_eq {a1 a2 : Int} {r1 r2 : Option Nat} {n : Nat} (hr1 : ∀ k, r1 = some k → k = n) (hr2 : ∀ k, r2 = some k → k = n)
    (l1 : -(n : Int) ≤ a1) (u1 : a1 < n) (l2 : -(n : Int) ≤ a2) (u2 : a2 < n) (h : normalised a1 r2 = normalised a2 r1) :
    pyIndex n a1 = pyIndex n a2 := by
  unfold pyIndex
  cases r1 with
  | none =>
    cases r2 with
    | none => simp only [normalised] at h; rw [h]
    | some k2 =>
      have := hr2 k2 rfl; subst this
      simp only [normalised] at h
      split at h <;> split <;> split <;> omega
  | some k1 =>
    have := hr1 k1 rfl; subst this
    cases r2 with
    | none =>
      simp only [normalised] at h
      split at h <;> split <;> split <;> omega
    | some k2 =>
      have := hr2 k2 rfl; subst this
      simp only [normalised] at h
      split at h <;> split at h <;> split <;> split <;> omega

theorem part_eq {p : List Nat} {a1 a2 : Axis} {s : Shape} (h1 : Fits p a1 s) (h2 : Fits p a2 s)
    (hp : pyIndex s.length a1.pos = pyIndex s.length a2.pos) (hk : sameKind a1 a2 = true) {i : Nat} (hi : i < p.length) :
    part s (getSlices p a1) i = part s (getSlices p a2) i := by
  obtain ⟨n, e1, e2⟩ := slice_along h1 (getD_getSlices h1 hi)
  obtain ⟨n', e3, e4⟩ := slice_along h2 (getD_getSlices h2 hi)
  rw [e1] at e3; cases e3
  unfold part
  rw [e2, e4, hp]
  cases a1 <;> cases a2 <;> first | rfl | simp [sameKind] at hk

/-- The results of the blocks of the product are the results of the blocks of the first operator for the output of the second one. -/
theorem comp_results [Zero R] (operation : R → R → R) (b1 b2 : BlockOp R) (sx sm sy : Shape) (hw1 : WellFormed b1 sm sy)
    (hw2 : WellFormed b2 sx sm) (a1 a2 : Axis) (ha1 : b1.axisin = some a1) (ha2 : b2.axisout = some a2)
    (hp : b1.partitionin = b2.partitionout) (hpos : pyIndex sm.length a1.pos = pyIndex sm.length a2.pos)
    (hk : sameKind a1 a2 = true)
    (hs : ∀ (i : Nat) (op : Operand R), b2.operands[i]? = some op → op.reshapein (b2.inputShape sx i) = b2.outputShape sm i)
    (x z : Arr R) (hz : Holds operation b2.axisout b2.partitionout sm (b2.blockResults sx x) z)
    (f : BlockOp R) (hfo : f.operands = List.zipWith comp b1.operands b2.operands)
    (hfa : f.axisin = b2.axisin) (hfp : ∀ a, b2.axisin = some a → f.partitionin = b2.partitionin) :
    f.operands.length = b1.operands.length ∧ b1.operands.length = b2.operands.length ∧
      f.blockResults sx x = b1.blockResults sm z := by
  obtain ⟨l1, f1⟩ := hw1.lenin a1 ha1
  obtain ⟨l2, f2⟩ := hw2.lenout a2 ha2
  have hl : b1.operands.length = b2.operands.length := by rw [← l1, ← l2, hp]
  have hfl : f.operands.length = b1.operands.length := by rw [hfo, List.length_zipWith]; omega
  refine ⟨hfl, hl, ?_⟩
  have hin : ∀ i, f.inputShape sx i = b2.inputShape sx i ∧ f.blockInput sx x i = b2.blockInput sx x i := by
    intro i
    unfold BlockOp.inputShape BlockOp.blockInput
    rw [hfa]
    cases h : b2.axisin with
    | none => exact ⟨rfl, rfl⟩
    | some a => simp only [hfp a h, and_self]
  have hlen : (f.blockResults sx x).length = f.operands.length := by
    unfold BlockOp.blockResults
    rw [hfa]
    cases h : b2.axisin with
    | none => simp
    | some a =>
      obtain ⟨q1, q2⟩ := hw2.lenin a h
      have := (C22_parts _ _ _ q2).1
      simp only [results, List.length_zipWith, hfp a h]
      omega
  apply List.ext_getElem?
  intro i
  by_cases hi : i < b1.operands.length
  · have g1 : b1.operands[i]? = some b1.operands[i] := List.getElem?_eq_getElem hi
    have g2 : b2.operands[i]? = some b2.operands[i] := List.getElem?_eq_getElem (by omega)
    have gf : f.operands[i]? = some (comp b1.operands[i] b2.operands[i]) := by rw [hfo, List.getElem?_zipWith, g1, g2]
    rw [blockResults_get hw1 z g1]
    have e : (f.blockResults sx x)[i]? =
        some ((comp b1.operands[i] b2.operands[i]).fn (f.inputShape sx i) (f.blockInput sx x i)) := by
      unfold BlockOp.blockResults BlockOp.inputShape BlockOp.blockInput
      rw [hfa]
      cases h : b2.axisin with
      | none => simp [gf]
      | some a =>
        obtain ⟨q1, q2⟩ := hw2.lenin a h
        have := (C22_parts _ _ _ q2).1
        exact results_get sx x f.operands _ i _ gf (by simp only [hfp a h]; omega)
    rw [e, (hin i).1, (hin i).2]
    simp only [comp, hs i _ g2]
    have hpart := part_eq (hp ▸ f1) f2 hpos hk (i := i) (by omega)
    have hsh : b1.inputShape sm i = b2.outputShape sm i := by
      unfold BlockOp.inputShape BlockOp.outputShape
      simp only [ha1, ha2, partShape, hp, hpart]
    rw [hsh]
    congr 2
    rw [ha2] at hz
    have hz' := hz i _ (blockResults_get hw2 x g2)
    funext l
    have hv : b1.blockInput sm z i = clip (b2.outputShape sm i) (fun l => z (place (part sm (getSlices b2.partitionout a2) i) l)) := by
      rw [← hsh]
      unfold BlockOp.blockInput BlockOp.inputShape
      simp only [ha1]
      rw [← hpart, ← hp]
      rfl
    rw [hv]
    simp only [clip]
    split
    · rename_i hc
      rw [hz' l (by simpa only [BlockOp.outputShape, ha2] using hc)]
    · rfl
  · rw [List.getElem?_eq_none (by omega), List.getElem?_eq_none]
    rw [blockResults_length b1 sm sy hw1]; omega

/-- The output of the result of a fusion is z on the shape sy: the partitions of a block operator are known and fit the input and the output,
and its evaluation gives z; a sum is evaluated by adding the outputs of its operands. -/
def Fused.Gives [AddCommMonoid R] (f : Fused R) (sx sy : Shape) (x y tmp : Nat) (m : Mem R) (z : Arr R) : Prop :=
  match f with
  | .block b => ∃ b', b.resolve = some b' ∧ WellFormed b' sx sy ∧ ∀ oks : List Bool, oks.length = b'.operands.length →
      ∃ m3, b'.direct (· + ·) sx sy x y tmp oks m = some m3 ∧ ∀ k, inShape sy k = true → m3 y k = z k
  | .sum ops => ∀ k, inShape sy k = true → z k = (ops.map (fun o => o.fn sx (m x) k)).sum

/-- C24.  When the product of two block operators is fused, the result has the same effect as the product: its partitions are known and
fit the input and the output, and its output is the one of the first operator applied to the output of the second one.  The product of a
block row and of a block column is the sum of the products of their blocks.  The operation of a block row is the addition. -/
theorem C24_composition [AddCommMonoid R] (b1 b2 : BlockOp R) (sx sm sy : Shape) (hw1 : WellFormed b1 sm sy)
    (hw2 : WellFormed b2 sx sm) (r1 r1o r2i r2 : Option Nat) (hr1 : ∀ n, r1 = some n → n = sm.length)
    (hr2 : ∀ n, r2 = some n → n = sm.length) (inferOut inferIn : List (Option Nat) → List (Option Nat)) (f : Fused R)
    (hf : fuseComposition (b1.attrs r1 r1o) (b2.attrs r2i r2) inferOut inferIn = some (some f))
    (hs : ∀ (i : Nat) (op : Operand R), b2.operands[i]? = some op → op.reshapein (b2.inputShape sx i) = b2.outputShape sm i)
    (x t y tmp : Nat) (hxt : x ≠ t) (hty : t ≠ y) (hxy : x ≠ y) (htmp : tmp ≠ x ∧ tmp ≠ t ∧ tmp ≠ y) (oks1 oks2 : List Bool)
    (ho1 : oks1.length = b1.operands.length) (ho2 : oks2.length = b2.operands.length) (m : Mem R) :
    ∃ m1 m2, b2.direct (· + ·) sx sm x t tmp oks2 m = some m1 ∧ b1.direct (· + ·) sm sy t y tmp oks1 m1 = some m2 ∧
      f.Gives sx sy x y tmp m (m2 y) := by
  obtain ⟨m1, e1, h1, _⟩ := direct_holds b2 (· + ·) sx sm hw2 x t tmp hxt htmp.1 htmp.2.1 oks2 ho2 m
  obtain ⟨m2, e2, h2, _⟩ := direct_holds b1 (· + ·) sm sy hw1 t y tmp hty htmp.2.1 htmp.2.2 oks1 ho1 m1
  refine ⟨m1, m2, e1, e2, ?_⟩
  unfold fuseComposition validateComposition at hf
  simp only [BlockOp.attrs] at hf
  cases ha1 : b1.axisin with
  | none => simp [ha1] at hf
  | some a1 =>
    cases ha2 : b2.axisout with
    | none => simp [ha1, ha2] at hf
    | some a2 =>
      simp only [ha1, ha2, Option.map_some] at hf
      by_cases hax : normalised a1.pos r2 = normalised a2.pos r1
      case neg => simp [hax] at hf
      case pos =>
        simp only [hax, ne_eq, not_true_eq_false, if_false] at hf
        cases hk : sameKind a1 a2 with
        | false => simp [hk] at hf
        | true =>
          simp only [hk, Bool.not_true, Bool.false_eq_true, if_false] at hf
          cases hm : mergeNone (b1.partitionin.map some) (b2.partitionout.map some) with
          | none => simp [hm] at hf
          | some p =>
            obtain ⟨hp, hpp⟩ := merge_known _ _ _ hm
            simp only [hm] at hf
            obtain ⟨l1, f1⟩ := hw1.lenin a1 ha1
            obtain ⟨l2, f2⟩ := hw2.lenout a2 ha2
            have hpos := normalised_eq hr1 hr2 f1.lower f1.upper f2.lower f2.upper hax
            have hkey := comp_results (· + ·) b1 b2 sx sm sy hw1 hw2 a1 a2 ha1 ha2 hp hpos hk hs (m x) (m1 t) h1
            -- the partitions of the result
            have hout : ∀ po, mergeInferred (Option.map (fun _ => b1.partitionout.map some) b1.axisout) (inferOut p) = some po →
                po = Option.map (fun _ => b1.partitionout.map some) b1.axisout := by
              intro po h
              cases hao : b1.axisout with
              | none => rw [hao] at h; simp only [Option.map_none, mergeInferred] at h ⊢; exact (Option.some.inj h).symm
              | some ao =>
                rw [hao] at h
                simp only [Option.map_some, mergeInferred, Option.map_eq_some_iff] at h ⊢
                obtain ⟨r, hr, rfl⟩ := h
                rw [merge_known_left _ _ _ hr]
            have hin : ∀ pi, mergeInferred (Option.map (fun _ => b2.partitionin.map some) b2.axisin) (inferIn p) = some pi →
                pi = Option.map (fun _ => b2.partitionin.map some) b2.axisin := by
              intro pi h
              cases hai : b2.axisin with
              | none => rw [hai] at h; simp only [Option.map_none, mergeInferred] at h ⊢; exact (Option.some.inj h).symm
              | some ai =>
                rw [hai] at h
                simp only [Option.map_some, mergeInferred, Option.map_eq_some_iff] at h ⊢
                obtain ⟨r, hr, rfl⟩ := h
                rw [merge_known_left _ _ _ hr]
            cases hpo : mergeInferred (Option.map (fun _ => b1.partitionout.map some) b1.axisout) (inferOut p) with
            | none => simp [hpo] at hf
            | some po =>
              cases hpi : mergeInferred (Option.map (fun _ => b2.partitionin.map some) b2.axisin) (inferIn p) with
              | none => simp [hpo, hpi] at hf
              | some pi =>
                simp only [hpo, hpi] at hf
                have hpo' := hout po hpo
                have hpi' := hin pi hpi
                by_cases hsum : pi = none ∧ po = none
                · rw [if_pos hsum] at hf
                  cases hf
                  have hai : b2.axisin = none := by
                    cases h : b2.axisin with
                    | none => rfl
                    | some a => rw [h] at hpi'; rw [hpi'] at hsum; simp at hsum
                  have hao : b1.axisout = none := by
                    cases h : b1.axisout with
                    | none => rfl
                    | some a => rw [h] at hpo'; rw [hpo'] at hsum; simp at hsum
                  intro k hkk
                  obtain ⟨_, _, hres⟩ := hkey ⟨List.zipWith comp b1.operands b2.operands, [], [], none, none⟩ rfl hai.symm
                    (fun a h => by rw [hai] at h; cases h)
                  rw [hao] at h2
                  obtain ⟨r, rs, e3, e4⟩ := h2
                  rw [e4 k hkk, foldl_add]
                  have : r k + (rs.map (fun r => r k)).sum = ((b1.blockResults sm (m1 t)).map (fun r => r k)).sum := by
                    rw [e3]; simp
                  rw [this, ← hres]
                  simp only [BlockOp.blockResults, List.map_map]
                  rfl
                · rw [if_neg hsum] at hf
                  cases hf
                  have hpi2 : entries pi = some (match b2.axisin with | some _ => b2.partitionin | none => []) := by
                    rw [hpi']
                    cases b2.axisin with
                    | none => rfl
                    | some a => exact mapOpt_some _
                  have hpo2 : entries po = some (match b1.axisout with | some _ => b1.partitionout | none => []) := by
                    rw [hpo']
                    cases b1.axisout with
                    | none => rfl
                    | some a => exact mapOpt_some _
                  refine ⟨_, by simp only [Block.resolve, hpi2, hpo2]; rfl, ?_⟩
                  obtain ⟨q1, q2, hres⟩ := hkey ⟨List.zipWith comp b1.operands b2.operands,
                    (match b2.axisin with | some _ => b2.partitionin | none => []),
                    (match b1.axisout with | some _ => b1.partitionout | none => []), b2.axisin, b1.axisout⟩ rfl rfl
                    (fun a h => by simp only [h])
                  have hwf : WellFormed ⟨List.zipWith comp b1.operands b2.operands,
                    (match b2.axisin with | some _ => b2.partitionin | none => []),
                    (match b1.axisout with | some _ => b1.partitionout | none => []), b2.axisin, b1.axisout⟩ sx sy := by
                    constructor
                    · intro h
                      apply hw1.blocks
                      rw [← List.length_eq_zero_iff, ← q1]
                      simpa using congrArg List.length h
                    · by_contra hc
                      simp only [not_or, not_not] at hc
                      apply hsum
                      rw [hpi', hpo', hc.1, hc.2]
                      exact ⟨rfl, rfl⟩
                    · intro a ha
                      obtain ⟨w1, w2⟩ := hw2.lenin a ha
                      simp only at ha
                      simp only [ha]
                      exact ⟨by rw [w1]; exact (q1.trans q2).symm, w2⟩
                    · intro a ha
                      obtain ⟨w1, w2⟩ := hw1.lenout a ha
                      simp only at ha
                      simp only [ha]
                      exact ⟨by rw [w1]; exact q1.symm, w2⟩
                  refine ⟨hwf, ?_⟩
                  intro oks ho
                  obtain ⟨m3, e3, h3, _⟩ := direct_holds _ (· + ·) sx sy hwf x y tmp hxy htmp.1 htmp.2.2 oks ho m
                  refine ⟨m3, e3, ?_⟩
                  intro k hkk
                  rw [hres] at h3
                  refine Holds.unique (hf := ?_) h3 ?_ k hkk
                  · intro a ha
                    obtain ⟨w1, w2⟩ := hw1.lenout a ha
                    simp only at ha
                    simp only [ha]
                    exact ⟨by rw [w1, blockResults_length b1 sm sy hw1], w2⟩
                  · cases hao : b1.axisout with
                    | none => rw [hao] at h2; exact h2
                    | some a => rw [hao] at h2; exact h2

end Verif.Block
