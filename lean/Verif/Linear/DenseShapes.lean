import Verif.Linear.Dense

/-
Property C118: the shapes of the dense block diagonal operators, src/pyoperators/linear.py:299-394, and the explicit shapes that
their constructor gives them, src/pyoperators/core.py:1188-1205.
-/

namespace Verif.Linear.Dense

open Verif.Shape Verif.Block Verif.Broadcast Verif.Pack Verif.Linear.Reshape

variable {R : Type}

/-- `reshapeout`: src/pyoperators/linear.py:311-322.  `none` is the ValueError of `broadcast_shapes`. -/
def Dense.reshapeout (d : Dense R) (shape : Shape) : Option Shape :=
  if !d.rightward || decide (shape.length ≤ d.naxesextra + d.naxesout) then
    (broadcastShapes [shape.take (shape.length - d.naxesout), d.sl]).map (· ++ d.sn)
  else (broadcastShapes [shape.take d.naxesextra, d.sl]).map (· ++ (d.sn ++ shape.drop (d.naxesextra + d.naxesout)))

/-- `validateout`: src/pyoperators/linear.py:363-394. -/
def Dense.validateout (d : Dense R) (shape : Shape) : Bool :=
  let n := shape.length
  if n < d.naxesout then false
  else
    let (l, s) :=
      if n ≤ d.naxesextra + d.naxesout then (shape.take (n - d.naxesout), shape.drop (n - d.naxesout))
      else if !d.rightward then
        ((shape.take (n - d.naxesout)).drop (n - d.naxesextra - d.naxesout), shape.drop (n - d.naxesout))
      else (shape.take d.naxesextra, (shape.drop d.naxesextra).take d.naxesout)
    decide (s = d.sm) && (broadcastShapes [l, d.sl]).isSome

/-- The output shape, if the input shape is known: src/pyoperators/core.py:1190-1195.  The outer `none` is the ValueError. -/
def Dense.fillOut (d : Dense R) (shapein shapeout : Option Shape) : Option (Option Shape) :=
  match shapein with
  | none => some shapeout
  | some s =>
    match d.reshapein s with
    | none => none
    | some t =>
      match shapeout with
      | none => some (some t)
      | some o => if d.validateout t then some (some o) else none

/-- The input shape, if the output shape is known: src/pyoperators/core.py:1196-1201. -/
def Dense.fillIn (d : Dense R) (shapein shapeout : Option Shape) : Option (Option Shape) :=
  match shapeout with
  | none => some shapein
  | some s =>
    match d.reshapeout s with
    | none => none
    | some t =>
      match shapein with
      | none => some (some t)
      | some o => if d.validatein t then some (some o) else none

/-- The explicit shapes of the operator, given the keywords shapein and shapeout of the constructor: src/pyoperators/core.py:1188-1205
and src/pyoperators/linear.py:262-270.  `none` is an exception. -/
def Dense.explicitShapes (d : Dense R) (shapein shapeout : Option Shape) : Option (Option Shape × Option Shape) :=
  match d.fillOut shapein shapeout with
  | none => none
  | some o =>
    match d.fillIn shapein o with
    | none => none
    | some i =>
      if i.all d.validatein && o.all d.validateout && i.all d.checkShapein then some (i, o) else none

/-! ### The shapes that are accepted -/

set_option linter.unusedSectionVars false

variable [CommRing R]

theorem layout_length {r : Bool} {n : Nat} {pre post : Shape} (h : Layout r n pre post) (hr : r = true) : pre.length ≤ n := by
  rcases h with ⟨_, h | h⟩ | ⟨_, h, _⟩
  · rw [hr] at h; cases h
  · exact h
  · omega

theorem pair_isSome {a b : Shape} : (broadcastShapes [a, b]).isSome = true ↔
    ∀ k, dimAt a k = 1 ∨ dimAt b k = 1 ∨ dimAt a k = dimAt b k := by
  constructor
  · intro h k
    obtain ⟨e, he⟩ := Option.isSome_iff_exists.1 h
    have hB := (C20_broadcast _ _).1 he
    have f1 := hB.fits a (by simp) k
    have f2 := hB.fits b (by simp) k
    omega
  · intro h
    cases hb : broadcastShapes [a, b] with
    | some u => rfl
    | none =>
      exfalso
      rw [C20_failure] at hb
      rcases hb with hb | ⟨s, hs, t, ht, k, a1, a2, a3⟩
      · cases hb
      · have := h k
        simp only [List.mem_cons, List.not_mem_nil, or_false] at hs ht
        rcases hs with rfl | rfl <;> rcases ht with rfl | rfl <;> omega

/-- The dimensions of the blocks are broadcast with the innermost extra dimensions of the shape only. -/
theorem broadcast_drop {pre sl : Shape} {j : Nat} (hj : j ≤ pre.length - sl.length) :
    (broadcastShapes [pre.drop j, sl]).isSome = (broadcastShapes [pre, sl]).isSome := by
  rw [Bool.eq_iff_iff, pair_isSome, pair_isSome]
  apply forall_congr'
  intro k
  by_cases hk : k < sl.length
  · have : dimAt (pre.drop j) k = dimAt pre k := by
      unfold dimAt
      rw [List.reverse_drop]
      by_cases h : k < pre.length - j
      · rw [List.getD_eq_getElem?_getD, List.getD_eq_getElem?_getD, List.getElem?_take_of_lt (by omega)]
      · have : j = 0 := by omega
        subst this
        rw [Nat.sub_zero, List.take_of_length_le (by simp)]
    rw [this]
  · have : dimAt sl k = 1 := by
      unfold dimAt
      rw [List.getD_eq_default _ _ (by simp; omega)]
    simp [this]

/-- **C118.** The input shapes that are accepted have the input dimensions of the blocks, after the extra dimensions (and before the
additional ones of a rightward broadcast), and their extra dimensions are compatible with the ones of the blocks. -/
theorem C118_validatein {d : Dense R} (h : d.Valid) (s : Shape) : d.validatein s = true ↔
    ∃ pre post e, s = pre ++ (d.sn ++ post) ∧ Layout d.rightward d.naxesextra pre post ∧ Broadcasts [pre, d.sl] e := by
  obtain ⟨l1, l2, l3⟩ := lengths h
  have hpos := h.pos
  unfold Dense.validatein
  constructor
  · intro hv
    by_cases hn : s.length < d.naxesin
    · simp [hn] at hv
    · rw [if_neg hn] at hv
      by_cases hle : s.length ≤ d.naxesextra + d.naxesin
      · simp only [if_pos hle, Bool.and_eq_true, decide_eq_true_eq] at hv
        obtain ⟨e, he⟩ := Option.isSome_iff_exists.1 hv.2
        refine ⟨_, [], e, ?_, Or.inl ⟨rfl, Or.inr ?_⟩, (C20_broadcast _ _).1 he⟩
        · rw [List.append_nil, ← hv.1, List.take_append_drop]
        · rw [List.length_take]; omega
      · cases hr : d.rightward
        · simp only [if_neg hle, hr, Bool.not_false, if_true, Bool.and_eq_true, decide_eq_true_eq] at hv
          rw [broadcast_drop (by rw [l1, List.length_take]; omega)] at hv
          obtain ⟨e, he⟩ := Option.isSome_iff_exists.1 hv.2
          refine ⟨_, [], e, ?_, Or.inl ⟨rfl, Or.inl rfl⟩, (C20_broadcast _ _).1 he⟩
          rw [List.append_nil, ← hv.1, List.take_append_drop]
        · simp only [if_neg hle, hr, Bool.not_true, Bool.false_eq_true, if_false, Bool.and_eq_true, decide_eq_true_eq] at hv
          obtain ⟨e, he⟩ := Option.isSome_iff_exists.1 hv.2
          refine ⟨_, s.drop (d.naxesextra + d.naxesin), e, ?_, Or.inr ⟨rfl, ?_, ?_⟩, (C20_broadcast _ _).1 he⟩
          · rw [← hv.1, ← List.drop_drop, List.take_append_drop, List.take_append_drop]
          · rw [List.length_take]; omega
          · intro h; have := congrArg List.length h; simp at this; omega
  · rintro ⟨pre, post, e, hs, hL, he⟩
    have he := (C20_broadcast _ _).2 he
    have hn : s.length = pre.length + d.naxesin + post.length := by
      rw [hs, List.length_append, List.length_append, l3]; omega
    rw [if_neg (by omega)]
    rcases hL with ⟨rfl, hL⟩ | ⟨hr, hp, hpost⟩
    · rw [List.append_nil] at hs
      simp only [List.length_nil, Nat.add_zero] at hn
      have htake : s.take (s.length - d.naxesin) = pre := by rw [hn, hs, Nat.add_sub_cancel, List.take_left]
      have hdrop : s.drop (s.length - d.naxesin) = d.sn := by rw [hn, hs, Nat.add_sub_cancel, List.drop_left]
      by_cases hle : s.length ≤ d.naxesextra + d.naxesin
      · simp only [if_pos hle, htake, hdrop, he]
        simp
      · have hr : d.rightward = false := by
          rcases hL with hL | hL
          · exact hL
          · omega
        simp only [if_neg hle, hr, Bool.not_false, if_true, htake, hdrop]
        rw [broadcast_drop (by omega), he]
        simp
    · have hpl : 0 < post.length := List.length_pos_iff.2 hpost
      have htake : s.take d.naxesextra = pre := by rw [hs, ← hp, List.take_left]
      have hdrop : s.drop d.naxesextra = d.sn ++ post := by rw [hs, ← hp, List.drop_left]
      have : (d.sn ++ post).take d.naxesin = d.sn := by rw [← l3, List.take_left]
      simp only [if_neg (show ¬ s.length ≤ d.naxesextra + d.naxesin by omega), hr, Bool.not_true, Bool.false_eq_true, if_false,
        htake, hdrop, this, he]
      simp

/-- The inferred output shape. -/
theorem reshapein_layout {d : Dense R} (h : d.Valid) {pre post e : Shape} (hL : Layout d.rightward d.naxesextra pre post)
    (he : broadcastShapes [pre, d.sl] = some e) : d.reshapein (pre ++ (d.sn ++ post)) = some (e ++ (d.sm ++ post)) := by
  obtain ⟨l1, l2, l3⟩ := lengths h
  unfold Dense.reshapein
  rcases hL with ⟨rfl, hL⟩ | ⟨hr, hp, hpost⟩
  · rw [if_pos]
    · simp only [List.append_nil, List.length_append, l3, Nat.add_sub_cancel, List.take_left, he]
      rfl
    · rcases hL with hL | hL
      · simp [hL]
      · simp [l3]; right; omega
  · have hpl : 0 < post.length := List.length_pos_iff.2 hpost
    rw [if_neg]
    · rw [← hp, List.take_left, he, ← List.drop_drop, List.drop_left, ← l3, List.drop_left]
      rfl
    · simp [hr, l3]; omega

theorem layout_broadcast {r : Bool} {n : Nat} {pre post sl e : Shape} (hsl : sl.length = n) (hL : Layout r n pre post)
    (he : Broadcasts [pre, sl] e) : Layout r n e post := by
  have hlen : e.length = pre.length ∨ e.length = n := by
    obtain ⟨s, hs, ht⟩ := he.att
    simp only [List.mem_cons, List.not_mem_nil, or_false] at hs
    rcases hs with rfl | rfl <;> omega
  rcases hL with ⟨rfl, hL | hL⟩ | ⟨hr, hp, hpost⟩
  · exact Or.inl ⟨rfl, Or.inl hL⟩
  · exact Or.inl ⟨rfl, Or.inr (by omega)⟩
  · exact Or.inr ⟨hr, by omega, hpost⟩

/-- Shapes that have been broadcast are not changed by another broadcast. -/
theorem broadcast_again {pre sl e : Shape} (he : Broadcasts [pre, sl] e) : Broadcasts [e, sl] e := by
  refine ⟨?_, ⟨e, by simp, rfl⟩, ?_, fun k => Or.inr ⟨e, by simp, rfl⟩⟩
  · intro s hs
    simp only [List.mem_cons, List.not_mem_nil, or_false] at hs
    rcases hs with rfl | rfl
    · exact Nat.le_refl _
    · exact he.le _ (by simp)
  · intro s hs k
    simp only [List.mem_cons, List.not_mem_nil, or_false] at hs
    rcases hs with rfl | rfl
    · exact Or.inr rfl
    · exact he.fits _ (by simp) k

/-- **C118.** The output side of an operator is the input side of its transpose. -/
theorem C118_transpose {d : Dense R} (h : d.Valid) : ∃ f, d.transpose = some f ∧ f.Valid ∧
    (∀ s, f.validatein s = d.validateout s) ∧ (∀ s, f.reshapein s = d.reshapeout s) ∧
    (∀ s, f.validateout s = d.validatein s) ∧ ∀ s, f.reshapeout s = d.reshapein s := by
  obtain ⟨f, hf, hv, a1, a2, a3, a4, a5, a6, a7, _⟩ := transpose_axes h
  refine ⟨f, hf, hv, fun s => ?_, fun s => ?_, fun s => ?_, fun s => ?_⟩
  · unfold Dense.validatein Dense.validateout; rw [a1, a3, a4, a5, a6]
  · unfold Dense.reshapein Dense.reshapeout; rw [a1, a2, a4, a5, a6]
  · unfold Dense.validatein Dense.validateout; rw [a1, a2, a4, a5, a7]
  · unfold Dense.reshapein Dense.reshapeout; rw [a1, a3, a4, a5, a7]

/-- **C118.** The output shapes that are accepted. -/
theorem C118_validateout {d : Dense R} (h : d.Valid) (s : Shape) : d.validateout s = true ↔
    ∃ pre post e, s = pre ++ (d.sm ++ post) ∧ Layout d.rightward d.naxesextra pre post ∧ Broadcasts [pre, d.sl] e := by
  obtain ⟨f, hf, hv, a1, a2, a3, a4, a5, a6, a7, _⟩ := transpose_axes h
  obtain ⟨f', hf', _, b1, _⟩ := C118_transpose h
  rw [hf] at hf'
  cases hf'
  rw [← b1, C118_validatein hv, a1, a3, a4, a5]

theorem reshapeout_layout {d : Dense R} (h : d.Valid) {pre post e : Shape} (hL : Layout d.rightward d.naxesextra pre post)
    (he : broadcastShapes [pre, d.sl] = some e) : d.reshapeout (pre ++ (d.sm ++ post)) = some (e ++ (d.sn ++ post)) := by
  obtain ⟨f, hf, hv, a1, a2, a3, a4, a5, a6, a7, _⟩ := transpose_axes h
  obtain ⟨f', hf', _, _, b2, _⟩ := C118_transpose h
  rw [hf] at hf'
  cases hf'
  rw [← b2, ← a3, ← a2]
  exact reshapein_layout hv (by rw [a4, a5]; exact hL) (by rw [a1]; exact he)

/-- **C118.** The output shape inferred from an accepted input shape is accepted, and the input shape inferred back from it, which is
the input shape once broadcast with the extra dimensions of the blocks, is accepted and gives the same output shape. -/
theorem C118_round_trip {d : Dense R} (h : d.Valid) {s : Shape} (hs : d.validatein s = true) :
    ∃ pre post e, s = pre ++ (d.sn ++ post) ∧ Broadcasts [pre, d.sl] e ∧
      d.reshapein s = some (e ++ (d.sm ++ post)) ∧ d.validateout (e ++ (d.sm ++ post)) = true ∧
      d.reshapeout (e ++ (d.sm ++ post)) = some (e ++ (d.sn ++ post)) ∧ d.validatein (e ++ (d.sn ++ post)) = true ∧
      d.reshapein (e ++ (d.sn ++ post)) = some (e ++ (d.sm ++ post)) := by
  obtain ⟨pre, post, e, rfl, hL, he⟩ := (C118_validatein h s).1 hs
  have hL' := layout_broadcast (lengths h).1 hL he
  have ha := broadcast_again he
  have ha' := (C20_broadcast _ _).2 ha
  exact ⟨pre, post, e, rfl, he, reshapein_layout h hL ((C20_broadcast _ _).2 he),
    (C118_validateout h _).2 ⟨e, post, e, rfl, hL', ha⟩, reshapeout_layout h hL' ha',
    (C118_validatein h _).2 ⟨e, post, e, rfl, hL', ha⟩, reshapein_layout h hL' ha'⟩

/-- **C118, partial.** An accepted output shape that has the extra dimensions of the blocks is the output shape of the input shape
inferred from it.  Missing from the full property: the other output shapes that are accepted (`C118_output_fails`). -/
theorem C118_output_partial {d : Dense R} (h : d.Valid) {pre post : Shape} (hL : Layout d.rightward d.naxesextra pre post)
    (he : Broadcasts [pre, d.sl] pre) : d.validateout (pre ++ (d.sm ++ post)) = true ∧
      ∃ t, d.reshapeout (pre ++ (d.sm ++ post)) = some t ∧ d.validatein t = true ∧ d.reshapein t = some (pre ++ (d.sm ++ post)) :=
  ⟨(C118_validateout h _).2 ⟨pre, post, pre, rfl, hL, he⟩, pre ++ (d.sn ++ post), reshapeout_layout h hL ((C20_broadcast _ _).2 he),
    (C118_validatein h _).2 ⟨pre, post, pre, rfl, hL, he⟩, reshapein_layout h hL ((C20_broadcast _ _).2 he)⟩

/-- **C118, partial.** An operator with an explicit input shape, and no explicit output shape, has the output shape of the calls with
an input of that shape.  Missing from the full property: the operators with an explicit output shape (`C118_shapeout_fails`,
`C118_both_fails`). -/
theorem C118_shapein_partial {d : Dense R} (h : d.Valid) {a : Shape} {i o : Option Shape}
    (hi : d.explicitShapes (some a) none = some (i, o)) :
    i = some a ∧ ∃ b, o = some b ∧ d.reshapein a = some b ∧ ∀ x z, x.shape = a → d.call x = some z → z.shape = b := by
  unfold Dense.explicitShapes Dense.fillOut at hi
  simp only at hi
  cases hre : d.reshapein a with
  | none => rw [hre] at hi; cases hi
  | some b =>
    rw [hre] at hi
    simp only [Dense.fillIn] at hi
    cases hro : d.reshapeout b with
    | none => rw [hro] at hi; cases hi
    | some c =>
      rw [hro] at hi
      simp only at hi
      split at hi
      · cases hi
      · rename_i i' hi'
        split at hi'
        · cases hi'
          split at hi
          · cases hi
            refine ⟨rfl, b, rfl, rfl, ?_⟩
            intro x z hx hz
            obtain ⟨pre, post, e, hs, hL, he, h0⟩ := call_inv h hz
            obtain ⟨z', hz', hs', _⟩ := call_layout h hs hL he h0
            rw [hz] at hz'
            cases hz'
            rw [hs']
            have := reshapein_layout h hL he
            rw [← hs, hx, hre] at this
            exact (Option.some.inj this).symm
          · cases hi
        · cases hi'

/-- **C118, partial.** Shapes that have the extra dimensions of the blocks can be given to the constructor, as input or output shape;
the operator has then both shapes.  Without either, the operator is accepted and has no explicit shape. -/
theorem C118_explicit_partial {d : Dense R} (h : d.Valid) {pre : Shape} (hL : Layout d.rightward d.naxesextra pre [])
    (he : Broadcasts [pre, d.sl] pre) :
    d.explicitShapes (some (pre ++ d.sn)) none = some (some (pre ++ d.sn), some (pre ++ d.sm)) ∧
      d.explicitShapes none (some (pre ++ d.sm)) = some (some (pre ++ d.sn), some (pre ++ d.sm)) ∧
      d.explicitShapes none none = some (none, none) := by
  have he' := (C20_broadcast _ _).2 he
  have r1 := reshapein_layout h hL he'
  have r2 := reshapeout_layout h hL he'
  have v1 := (C118_validatein h _).2 ⟨pre, [], pre, rfl, hL, he⟩
  have v2 := (C118_validateout h _).2 ⟨pre, [], pre, rfl, hL, he⟩
  simp only [List.append_nil] at r1 r2 v1 v2
  have c := (C46_shapein_partial h).2 he
  unfold Dense.explicitShapes Dense.fillOut Dense.fillIn
  simp [r1, r2, v1, v2, c]

/-- **C118 does not hold** for all the accepted output shapes: the extra dimensions of the blocks may not be in the output. -/
theorem C118_output_fails : ∃ (d : Dense Int) (s t : Shape), d.Valid ∧ d.validateout s = true ∧ d.reshapeout s = some t ∧
    d.validatein t = true ∧ d.reshapein t ≠ some s :=
  ⟨⟨array [2, 1, 3] [1, 1, 1, 1, -1, 1], 1, 1, 1, false⟩, [1, 1], [2, 3], ⟨rfl, by decide, by decide⟩, by decide, by decide,
    by decide, by decide⟩

/-- **C118 does not hold** for explicit output shapes: the constructor accepts one that the operator does not produce, for any input of
the input shape that it is given. -/
theorem C118_shapeout_fails : ∃ (d : Dense Int) (a b : Shape), d.Valid ∧ d.explicitShapes none (some b) = some (some a, some b) ∧
    d.reshapein a ≠ some b :=
  ⟨⟨array [2, 1, 3] [1, 1, 1, 1, -1, 1], 1, 1, 1, false⟩, [2, 3], [1, 1], ⟨rfl, by decide, by decide⟩, by decide, by decide⟩

/-- **C118 does not hold** if both shapes are given: the constructor accepts shapes that contradict each other. -/
theorem C118_both_fails : ∃ (d : Dense Int) (a b : Shape), d.Valid ∧
    d.explicitShapes (some a) (some b) = some (some a, some b) ∧ d.reshapein a ≠ some b :=
  ⟨⟨array [2, 1, 3] [1, 1, 1, 1, -1, 1], 1, 1, 1, false⟩, [2, 3], [5, 2, 1], ⟨rfl, by decide, by decide⟩, by decide, by decide⟩

/-- Meeting the hypotheses: blocks with extra dimensions, additional dimensions on the left or on the right. -/
example : let d : Dense Int := ⟨array [2, 1, 3] [1, 1, 1, 1, -1, 1], 1, 1, 1, false⟩
    d.Valid ∧ d.validatein [3] = true ∧ d.validatein [4, 1, 3] = true ∧ d.reshapein [4, 1, 3] = some [4, 2, 1] ∧
      d.reshapeout [4, 2, 1] = some [4, 2, 3] ∧ Layout d.rightward d.naxesextra [4, 2] [] ∧ Broadcasts [[4, 2], d.sl] [4, 2] ∧
      d.explicitShapes (some [4, 2, 3]) none = some (some [4, 2, 3], some [4, 2, 1]) := by
  refine ⟨⟨rfl, by decide, by decide⟩, by decide, by decide, by decide, by decide, Or.inl ⟨rfl, Or.inl rfl⟩, ?_, by decide⟩
  rw [← C20_broadcast]
  decide

example : let d : Dense Int := ⟨array [2, 1, 3] [1, 1, 1, 1, -1, 1], 1, 1, 1, true⟩
    d.Valid ∧ d.validatein [1, 3, 5] = true ∧ d.reshapein [1, 3, 5] = some [2, 1, 5] ∧ d.reshapeout [2, 1, 5] = some [2, 3, 5] ∧
      Layout d.rightward d.naxesextra [2] [5] ∧ Broadcasts [[2], d.sl] [2] := by
  refine ⟨⟨rfl, by decide, by decide⟩, by decide, by decide, by decide, Or.inr ⟨rfl, rfl, by simp⟩, ?_⟩
  rw [← C20_broadcast]
  decide

end Verif.Linear.Dense
