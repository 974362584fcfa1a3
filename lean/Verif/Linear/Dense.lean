import Verif.Linear.Reshape

/-
Model of the dense operators: src/pyoperators/linear.py:95-207 (`DenseBase`), 210-419 (`DenseBlockDiagonalOperator`) and 422-511
(`DenseOperator`).
-/

namespace Verif.Linear.Dense

open Verif.Shape Verif.Block Verif.Broadcast Verif.Pack Verif.Linear.Reshape

variable {R : Type}

/-- The attributes of a dense operator: src/pyoperators/linear.py:165-170.  Conversions of the data type are not modelled. -/
structure Dense (R : Type) where
  data : Data R
  naxesin : Nat
  naxesout : Nat
  naxesextra : Nat
  rightward : Bool

/-- `self._sl`: src/pyoperators/linear.py:171. -/
def Dense.sl (d : Dense R) : Shape := d.data.shape.take d.naxesextra

/-- `self._sm`, for data whose number of dimensions is the sum of the numbers of axes: src/pyoperators/linear.py:172. -/
def Dense.sm (d : Dense R) : Shape := (d.data.shape.drop d.naxesextra).take d.naxesout

/-- `self._sn`: src/pyoperators/linear.py:173. -/
def Dense.sn (d : Dense R) : Shape := (d.data.shape.drop d.naxesextra).drop d.naxesout

/-- The constructor with the keywords naxesin and naxesout, for data with at least two dimensions: src/pyoperators/linear.py:137-178.
`none` is the ValueError.  Without extra dimension the class becomes `DenseOperator` (140-144), whose methods are instances of
the ones of `DenseBlockDiagonalOperator`. -/
def make (data : Data R) (naxesin naxesout : Nat) (rightward : Bool) : Option (Dense R) :=
  if naxesin + naxesout ≤ data.shape.length then
    some ⟨data, naxesin, naxesout, data.shape.length - naxesin - naxesout, rightward⟩
  else none

/-- `self._data`: src/pyoperators/linear.py:177. -/
def Dense.merged (d : Dense R) : Data R := reshape d.data (d.sl ++ [d.sm.prod, d.sn.prod])

/-- `validatein`: src/pyoperators/linear.py:323-356. -/
def Dense.validatein (d : Dense R) (shape : Shape) : Bool :=
  let n := shape.length
  if n < d.naxesin then false
  else
    let (l, s) :=
      if n ≤ d.naxesextra + d.naxesin then (shape.take (n - d.naxesin), shape.drop (n - d.naxesin))
      else if !d.rightward then
        ((shape.take (n - d.naxesin)).drop (n - d.naxesextra - d.naxesin), shape.drop (n - d.naxesin))
      else (shape.take d.naxesextra, (shape.drop d.naxesextra).take d.naxesin)
    decide (s = d.sn) && (broadcastShapes [l, d.sl]).isSome

/-- `reshapein`: src/pyoperators/linear.py:299-309. -/
def Dense.reshapein (d : Dense R) (shape : Shape) : Option Shape :=
  if !d.rightward || decide (shape.length ≤ d.naxesextra + d.naxesin) then
    (broadcastShapes [shape.take (shape.length - d.naxesin), d.sl]).map (· ++ d.sm)
  else (broadcastShapes [shape.take d.naxesextra, d.sl]).map (· ++ (d.sm ++ shape.drop (d.naxesextra + d.naxesin)))

variable [CommRing R]

/-- `np.einsum('...mn,...n->...m', a, x)`, a having the shape sa + (m, n) and x the shape sx + (n,). -/
def einsumV (a x : Data R) (sa sx : Shape) (m n : Nat) : Option (Data R) :=
  (bshape sx.reverse sa.reverse).map fun e =>
    ⟨e.reverse ++ [m], fun k => ((List.range n).map fun q =>
      a.get (pick sa k.dropLast ++ [k.getLastD 0, q]) * x.get (pick sx k.dropLast ++ [q])).sum⟩

/-- `np.einsum('...mn,...np->...mp', a, x)`, a having the shape sa + (m, n) and x the shape sx + (n, p). -/
def einsumM (a x : Data R) (sa sx : Shape) (m n p : Nat) : Option (Data R) :=
  (bshape sx.reverse sa.reverse).map fun e =>
    ⟨e.reverse ++ [m, p], fun k => ((List.range n).map fun q =>
      a.get (pick sa k.dropLast.dropLast ++ [k.dropLast.getLastD 0, q]) *
        x.get (pick sx k.dropLast.dropLast ++ [q, k.getLastD 0])).sum⟩

/-- `np.dot(a, b)`, a having the shape sa + (m, n) and b the shape (n, p). -/
def dot (a b : Data R) (sa : Shape) (m n p : Nat) : Data R :=
  ⟨sa ++ [m, p], fun k => ((List.range n).map fun q => a.get (k.dropLast ++ [q]) * b.get [q, k.getLastD 0]).sum⟩

/-- `direct`, the output having the shape so: src/pyoperators/linear.py:268-296 and 494-511.  A reshape that would not change the shape
is written too.  The shape of the result of `np.einsum` must be the one of `out`; a dimension given by -1 cannot be deduced if
the product of the other ones is zero. -/
def Dense.direct (d : Dense R) (x : Data R) (so : Shape) : Option (Data R) :=
  let si := x.shape
  if !d.rightward || decide (si.length ≤ d.naxesextra + d.naxesin) then
    let pre := si.take (si.length - d.naxesin)
    let so' := so.take (so.length - d.naxesout) ++ [d.sm.prod]
    match einsumV d.merged (reshape x (pre ++ [d.sn.prod])) d.sl pre d.sm.prod d.sn.prod with
    | none => none
    | some y => if y.shape = so' then some (reshape y so) else none
  else
    let pre := si.take d.naxesextra
    let post := so.take d.naxesextra
    if (pre.prod * d.sn.prod = 0) ∨ (post.prod * d.sm.prod = 0) then none
    else
      let p := si.prod / (pre.prod * d.sn.prod)
      let p' := so.prod / (post.prod * d.sm.prod)
      match einsumM d.merged (reshape x (pre ++ [d.sn.prod, p])) d.sl pre d.sm.prod d.sn.prod p with
      | none => none
      | some y => if y.shape = post ++ [d.sm.prod, p'] then some (reshape y so) else none

/-- The call of the operator: the validation of the input, the shape of the output and the method direct. -/
def Dense.call (d : Dense R) (x : Data R) : Option (Data R) :=
  if d.validatein x.shape then
    match d.reshapein x.shape with
    | none => none
    | some so => d.direct x so
  else none

/-- `np.rollaxis(a, -1, p)`. -/
def rollLast (p : Nat) (a : Data R) : Data R :=
  ⟨a.shape.take p ++ a.shape.getLastD 0 :: (a.shape.drop p).dropLast, fun k => a.get (k.eraseIdx p ++ [k.getD p 0])⟩

/-- `_rule_transpose`: src/pyoperators/linear.py:394-401. -/
def Dense.transpose (d : Dense R) : Option (Dense R) :=
  make ((rollLast d.naxesextra)^[d.naxesin] d.data) d.naxesout d.naxesin d.rightward

/-- `_rule_mul`: src/pyoperators/linear.py:403-419. -/
def Dense.mul (d e : Dense R) : Option (Dense R) :=
  if d.sn ≠ e.sm then none
  else
    let prod := if e.naxesextra = 0 then some (dot d.merged e.merged d.sl d.sm.prod d.sn.prod e.sn.prod)
      else einsumM d.merged e.merged d.sl e.sl d.sm.prod d.sn.prod e.sn.prod
    match prod with
    | none => none
    | some a => make (reshape a (a.shape.dropLast.dropLast ++ (d.sm ++ e.sn))) e.naxesin d.naxesout e.rightward

/-- `_rule_homothety`: src/pyoperators/linear.py:203-207.  The keyword broadcast is not given. -/
def Dense.homothety (d : Dense R) (c : R) : Option (Dense R) :=
  make ⟨d.data.shape, fun k => c * d.data.get k⟩ d.naxesin d.naxesout false

/-- The check of the constructor, if the input shape is given: src/pyoperators/linear.py:257-265.  `none` is the NotImplementedError or
the ValueError of `broadcast_shapes`. -/
def Dense.checkShapein (d : Dense R) (shapein : Shape) : Bool :=
  let extra := shapein.take (shapein.length - d.naxesin)
  decide (broadcastShapes [extra, d.sl] = some extra)

/-! ### The effect of an operator -/

/-- The operators made by the constructor. -/
structure Dense.Valid (d : Dense R) : Prop where
  ndim : d.data.shape.length = d.naxesextra + d.naxesout + d.naxesin
  pos : 1 ≤ d.naxesin
  posout : 1 ≤ d.naxesout

section
omit [CommRing R]

theorem Dense.shape_eq (d : Dense R) : d.data.shape = d.sl ++ (d.sm ++ d.sn) := by
  simp [Dense.sl, Dense.sm, Dense.sn]

theorem merged_get (d : Dense R) {k : MIndex} (hk : inShape d.sl k = true) {r q : Nat} (hr : r < d.sm.prod) (hq : q < d.sn.prod) :
    d.merged.get (k ++ [r, q]) = d.data.get (k ++ (unravel d.sm r ++ unravel d.sn q)) :=
  reshape_merge₂ d.data d.shape_eq hk hr hq

end

theorem lengths {d : Dense R} (h : d.Valid) : d.sl.length = d.naxesextra ∧ d.sm.length = d.naxesout ∧ d.sn.length = d.naxesin := by
  have := h.ndim
  simp only [Dense.sl, Dense.sm, Dense.sn, List.length_take, List.length_drop]
  omega

theorem call_eq {d : Dense R} {x : Data R} {so : Shape} (h1 : d.validatein x.shape = true) (h2 : d.reshapein x.shape = some so) :
    d.call x = d.direct x so := by
  unfold Dense.call
  rw [if_pos h1, h2]

/-- The axes along which the product is made, after the extra ones (and additional ones) of a leftward broadcast. -/
theorem call_left {d : Dense R} (h : d.Valid) {x : Data R} {pre e : Shape} (hx : x.shape = pre ++ d.sn)
    (hp : d.rightward = false ∨ pre.length ≤ d.naxesextra) (he : broadcastShapes [pre, d.sl] = some e) :
    ∃ z, d.call x = some z ∧ z.shape = e ++ d.sm ∧ ∀ k l, inShape e k = true → inShape d.sm l = true →
      z.get (k ++ l) = ((enum d.sn).map fun m => d.data.get (pick d.sl k ++ (l ++ m)) * x.get (pick pre k ++ m)).sum := by
  obtain ⟨l1, l2, l3⟩ := lengths h
  have hn : x.shape.length = pre.length + d.naxesin := by rw [hx, List.length_append, l3]
  have htake : x.shape.take (x.shape.length - d.naxesin) = pre := by
    rw [hn, hx, Nat.add_sub_cancel, List.take_left]
  have hdrop : x.shape.drop (x.shape.length - d.naxesin) = d.sn := by
    rw [hn, hx, Nat.add_sub_cancel, List.drop_left]
  have hcond : (!d.rightward || decide (x.shape.length ≤ d.naxesextra + d.naxesin)) = true := by
    rcases hp with hp | hp
    · simp [hp]
    · simp [hn]; right; omega
  have hval : d.validatein x.shape = true := by
    unfold Dense.validatein
    rw [if_neg (by omega)]
    by_cases hle : x.shape.length ≤ d.naxesextra + d.naxesin
    · simp only [if_pos hle, htake, hdrop, he]
      simp
    · have hr : d.rightward = false := by
        rcases hp with hp | hp
        · exact hp
        · omega
      simp only [if_neg hle, hr, Bool.not_false, if_true, htake, hdrop]
      simp only [decide_true, Bool.true_and]
      cases hb : broadcastShapes [List.drop (x.shape.length - d.naxesextra - d.naxesin) pre, d.sl] with
      | some u => rfl
      | none =>
        exfalso
        rw [C20_failure] at hb
        rcases hb with hb | ⟨s, hs, t, ht, k, a1, a2, a3⟩
        · cases hb
        have hB := (C20_broadcast _ _).1 he
        have f1 := hB.fits pre (by simp) k
        have f2 := hB.fits d.sl (by simp) k
        have f3 : dimAt (List.drop (x.shape.length - d.naxesextra - d.naxesin) pre) k = 1 ∨
            dimAt (List.drop (x.shape.length - d.naxesextra - d.naxesin) pre) k = dimAt pre k := by
          unfold dimAt
          rw [List.reverse_drop]
          by_cases hk : k < pre.length - (x.shape.length - d.naxesextra - d.naxesin)
          · right
            rw [List.getD_eq_getElem?_getD, List.getD_eq_getElem?_getD, List.getElem?_take_of_lt (by omega)]
          · left
            rw [List.getD_eq_default _ _ (by simp; omega)]
        simp only [List.mem_cons, List.not_mem_nil, or_false] at hs ht
        rcases hs with rfl | rfl <;> rcases ht with rfl | rfl <;> omega
  have hre : d.reshapein x.shape = some (e ++ d.sm) := by
    unfold Dense.reshapein
    rw [if_pos hcond, htake, he]
    rfl
  have hb : bshape pre.reverse d.sl.reverse = some e.reverse := by
    rw [broadcastShapes_pair] at he
    obtain ⟨u, hu, rfl⟩ := Option.map_eq_some_iff.1 he
    rw [hu, List.reverse_reverse]
  have hso : (e ++ d.sm).take ((e ++ d.sm).length - d.naxesout) = e := by
    rw [List.length_append, l2, Nat.add_sub_cancel, List.take_left]
  have hdir : d.direct x (e ++ d.sm) = some (reshape ⟨e ++ [d.sm.prod], fun k => ((List.range d.sn.prod).map fun q =>
      d.merged.get (pick d.sl k.dropLast ++ [k.getLastD 0, q]) *
        (reshape x (pre ++ [d.sn.prod])).get (pick pre k.dropLast ++ [q])).sum⟩ (e ++ d.sm)) := by
    unfold Dense.direct
    simp only [hcond, if_true, htake, hso, einsumV, hb, Option.map_some, List.reverse_reverse]
  have hc := (call_eq hval hre).trans hdir
  refine ⟨_, hc, rfl, ?_⟩
  intro k l hk hl
  rw [reshape_split _ rfl hk hl, ← sum_unravel]
  simp only [List.dropLast_concat]
  congr 1
  apply List.map_congr_left
  intro q hq
  have hq := List.mem_range.1 hq
  rw [show (k ++ [ravel d.sm l]).getLastD 0 = ravel d.sm l by simp [List.getLastD_eq_getLast?],
    merged_get d (pick_inShape (Into.of_right he) hk) (ravel_lt hl) hq, unravel_ravel hl,
    reshape_merge x hx (pick_inShape (Into.of_left he) hk) hq]

/-- The axes along which the product is made, between the extra ones and the additional ones of a rightward broadcast. -/
theorem call_right {d : Dense R} (h : d.Valid) {x : Data R} {pre post e : Shape} (hx : x.shape = pre ++ (d.sn ++ post))
    (hr : d.rightward = true) (hp : pre.length = d.naxesextra) (hpost : post ≠ []) (he : broadcastShapes [pre, d.sl] = some e)
    (h0 : pre.prod * d.sn.prod ≠ 0) (h1 : e.prod * d.sm.prod ≠ 0) :
    ∃ z, d.call x = some z ∧ z.shape = e ++ (d.sm ++ post) ∧ ∀ k l m, inShape e k = true → inShape d.sm l = true →
      inShape post m = true → z.get (k ++ (l ++ m)) =
        ((enum d.sn).map fun n => d.data.get (pick d.sl k ++ (l ++ n)) * x.get (pick pre k ++ (n ++ m))).sum := by
  obtain ⟨l1, l2, l3⟩ := lengths h
  have hpl : 0 < post.length := List.length_pos_iff.2 hpost
  have hn : x.shape.length = pre.length + d.naxesin + post.length := by rw [hx, List.length_append, List.length_append, l3]; omega
  have htake : x.shape.take d.naxesextra = pre := by rw [hx, ← hp, List.take_left]
  have hdrop : x.shape.drop d.naxesextra = d.sn ++ post := by rw [hx, ← hp, List.drop_left]
  have hdrop2 : x.shape.drop (d.naxesextra + d.naxesin) = post := by
    rw [← List.drop_drop, hdrop, ← l3, List.drop_left]
  have hcond : ¬ (!d.rightward || decide (x.shape.length ≤ d.naxesextra + d.naxesin)) = true := by
    simp [hr, hn]; omega
  have hval : d.validatein x.shape = true := by
    unfold Dense.validatein
    rw [if_neg (by omega)]
    have : (d.sn ++ post).take d.naxesin = d.sn := by rw [← l3, List.take_left]
    simp only [if_neg (show ¬ x.shape.length ≤ d.naxesextra + d.naxesin by omega), hr, Bool.not_true, Bool.false_eq_true, if_false,
      htake, hdrop, this, he]
    simp
  have hre : d.reshapein x.shape = some (e ++ (d.sm ++ post)) := by
    unfold Dense.reshapein
    rw [if_neg hcond, htake, he, hdrop2]
    rfl
  have hb : bshape pre.reverse d.sl.reverse = some e.reverse := by
    rw [broadcastShapes_pair] at he
    obtain ⟨u, hu, rfl⟩ := Option.map_eq_some_iff.1 he
    rw [hu, List.reverse_reverse]
  have hel : e.length = d.naxesextra := by
    have := (C20_broadcast _ _).1 he
    obtain ⟨s, hs, ht⟩ := this.att
    simp only [List.mem_cons, List.not_mem_nil, or_false] at hs
    rcases hs with rfl | rfl <;> omega
  have hso : (e ++ (d.sm ++ post)).take d.naxesextra = e := by rw [← hel, List.take_left]
  have hq : x.shape.prod / (pre.prod * d.sn.prod) = post.prod := by
    rw [hx, List.prod_append, List.prod_append, ← Nat.mul_assoc, Nat.mul_div_cancel_left _ (Nat.pos_of_ne_zero h0)]
  have hq' : (e ++ (d.sm ++ post)).prod / (e.prod * d.sm.prod) = post.prod := by
    rw [List.prod_append, List.prod_append, ← Nat.mul_assoc, Nat.mul_div_cancel_left _ (Nat.pos_of_ne_zero h1)]
  have hdir : d.direct x (e ++ (d.sm ++ post)) = some (reshape ⟨e ++ [d.sm.prod, post.prod], fun k => ((List.range d.sn.prod).map fun q =>
      d.merged.get (pick d.sl k.dropLast.dropLast ++ [k.dropLast.getLastD 0, q]) *
        (reshape x (pre ++ [d.sn.prod, post.prod])).get (pick pre k.dropLast.dropLast ++ [q, k.getLastD 0])).sum⟩
          (e ++ (d.sm ++ post))) := by
    unfold Dense.direct
    simp only [if_neg hcond, htake, hso, if_neg (not_or.2 ⟨h0, h1⟩), hq, hq', einsumM, hb, Option.map_some, List.reverse_reverse,
      if_true]
  have hc := (call_eq hval hre).trans hdir
  refine ⟨_, hc, rfl, ?_⟩
  intro k l m hk hl hm
  rw [reshape_split₂ _ rfl hk hl hm, ← sum_unravel]
  have e1 : (k ++ [ravel d.sm l, ravel post m]).dropLast = k ++ [ravel d.sm l] := by
    rw [show k ++ [ravel d.sm l, ravel post m] = (k ++ [ravel d.sm l]) ++ [ravel post m] by simp, List.dropLast_concat]
  have e2 : (k ++ [ravel d.sm l, ravel post m]).getLastD 0 = ravel post m := by simp [List.getLastD_eq_getLast?]
  have e3 : (k ++ [ravel d.sm l]).getLastD 0 = ravel d.sm l := by simp [List.getLastD_eq_getLast?]
  simp only [e1, e2, e3, List.dropLast_concat]
  congr 1
  apply List.map_congr_left
  intro q hq
  have hq := List.mem_range.1 hq
  rw [merged_get d (pick_inShape (Into.of_right he) hk) (ravel_lt hl) hq, unravel_ravel hl,
    reshape_merge₂ x hx (pick_inShape (Into.of_left he) hk) hq (ravel_lt hm), unravel_ravel hm]

/-- The axes of the input (or output) that come before and after the ones along which the product is made. -/
def Layout (rightward : Bool) (naxesextra : Nat) (pre post : Shape) : Prop :=
  (post = [] ∧ (rightward = false ∨ pre.length ≤ naxesextra)) ∨ (rightward = true ∧ pre.length = naxesextra ∧ post ≠ [])

/-- The dimensions that have to be deduced by NumPy can be. -/
def Deducible (d : Dense R) (pre e post : Shape) : Prop := post ≠ [] → pre.prod * d.sn.prod ≠ 0 ∧ e.prod * d.sm.prod ≠ 0

theorem call_layout {d : Dense R} (h : d.Valid) {x : Data R} {pre post e : Shape} (hx : x.shape = pre ++ (d.sn ++ post))
    (hL : Layout d.rightward d.naxesextra pre post) (he : broadcastShapes [pre, d.sl] = some e) (h0 : Deducible d pre e post) :
    ∃ z, d.call x = some z ∧ z.shape = e ++ (d.sm ++ post) ∧ ∀ k l m, inShape e k = true → inShape d.sm l = true →
      inShape post m = true → z.get (k ++ (l ++ m)) =
        ((enum d.sn).map fun n => d.data.get (pick d.sl k ++ (l ++ n)) * x.get (pick pre k ++ (n ++ m))).sum := by
  rcases hL with ⟨rfl, hL⟩ | ⟨h1, h2, h3⟩
  · rw [List.append_nil] at hx
    obtain ⟨z, hz, hs, hg⟩ := call_left h hx hL he
    refine ⟨z, hz, by rw [hs, List.append_nil], ?_⟩
    intro k l m hk hl hm
    have : m = [] := List.length_eq_zero_iff.1 (Broadcast.inShape_length hm)
    subst this
    simp only [List.append_nil]
    exact hg k l hk hl
  · exact call_right h hx h1 h2 h3 he (h0 h3).1 (h0 h3).2

/-- The calls that succeed. -/
theorem call_inv {d : Dense R} (h : d.Valid) {x z : Data R} (hz : d.call x = some z) :
    ∃ pre post e, x.shape = pre ++ (d.sn ++ post) ∧ Layout d.rightward d.naxesextra pre post ∧
      broadcastShapes [pre, d.sl] = some e ∧ Deducible d pre e post := by
  obtain ⟨l1, l2, l3⟩ := lengths h
  unfold Dense.call at hz
  split at hz
  swap
  · cases hz
  rename_i hv
  cases hre : d.reshapein x.shape with
  | none => rw [hre] at hz; cases hz
  | some so =>
  rw [hre] at hz
  simp only at hz
  unfold Dense.reshapein at hre
  unfold Dense.validatein at hv
  by_cases hn : x.shape.length < d.naxesin
  · rw [if_pos hn] at hv; cases hv
  rw [if_neg hn] at hv
  by_cases hc : (!d.rightward || decide (x.shape.length ≤ d.naxesextra + d.naxesin)) = true
  · rw [if_pos hc] at hre
    obtain ⟨e, he, rfl⟩ := Option.map_eq_some_iff.1 hre
    have hs : x.shape.drop (x.shape.length - d.naxesin) = d.sn := by
      by_cases hle : x.shape.length ≤ d.naxesextra + d.naxesin
      · simp only [if_pos hle, Bool.and_eq_true, decide_eq_true_eq] at hv
        exact hv.1
      · have hr : d.rightward = false := by simpa [hle] using hc
        simp only [if_neg hle, hr, Bool.not_false, if_true, Bool.and_eq_true, decide_eq_true_eq] at hv
        exact hv.1
    refine ⟨_, [], e, ?_, Or.inl ⟨rfl, ?_⟩, he, fun h => absurd rfl h⟩
    · rw [List.append_nil, ← hs, List.take_append_drop]
    · simp only [Bool.or_eq_true, Bool.not_eq_true', decide_eq_true_eq] at hc
      rcases hc with hc | hc
      · exact Or.inl hc
      · right; rw [List.length_take]; omega
  · have hc' := hc
    simp only [Bool.or_eq_true, Bool.not_eq_true', decide_eq_true_eq, not_or, Bool.not_eq_false] at hc
    rw [if_neg hc'] at hre
    obtain ⟨e, he, rfl⟩ := Option.map_eq_some_iff.1 hre
    simp only [if_neg hc.2, hc.1, Bool.not_true, Bool.false_eq_true, if_false, Bool.and_eq_true, decide_eq_true_eq] at hv
    have hel : e.length = d.naxesextra := by
      have := (C20_broadcast _ _).1 he
      obtain ⟨s, hs, ht⟩ := this.att
      simp only [List.mem_cons, List.not_mem_nil, or_false] at hs
      rcases hs with rfl | rfl
      · rw [← ht, List.length_take]; omega
      · omega
    refine ⟨_, x.shape.drop (d.naxesextra + d.naxesin), e, ?_, Or.inr ⟨hc.1, ?_, ?_⟩, he, fun _ => ?_⟩
    · rw [← hv.1, ← List.drop_drop, List.take_append_drop, List.take_append_drop]
    · rw [List.length_take]; omega
    · intro h; have := congrArg List.length h; simp at this; omega
    · unfold Dense.direct at hz
      simp only [if_neg hc'] at hz
      split at hz
      · cases hz
      · next h0 =>
        rw [not_or] at h0
        rw [show (e ++ (d.sm ++ List.drop (d.naxesextra + d.naxesin) x.shape)).take d.naxesextra = e by rw [← hel, List.take_left]] at h0
        exact h0

/-- **C46.** A dense block diagonal operator multiplies by its blocks.  Along the axes before (and after, for rightward broadcasts) the
ones of the product, the blocks and the input are broadcast. -/
theorem C46_direct {d : Dense R} (h : d.Valid) {x z : Data R} (hz : d.call x = some z) :
    ∃ pre post e, x.shape = pre ++ (d.sn ++ post) ∧ Layout d.rightward d.naxesextra pre post ∧ Broadcasts [pre, d.sl] e ∧
      z.shape = e ++ (d.sm ++ post) ∧ ∀ k l m, inShape e k = true → inShape d.sm l = true → inShape post m = true →
        z.get (k ++ (l ++ m)) =
          ((enum d.sn).map fun n => d.data.get (pick d.sl k ++ (l ++ n)) * x.get (pick pre k ++ (n ++ m))).sum := by
  obtain ⟨pre, post, e, hx, hL, he, h0⟩ := call_inv h hz
  obtain ⟨z', hz', hs, hg⟩ := call_layout h hx hL he h0
  rw [hz] at hz'
  cases hz'
  exact ⟨pre, post, e, hx, hL, (C20_broadcast _ _).1 he, hs, hg⟩

/-! ### Transposition -/

theorem roll_iterate (sl sm : Shape) : ∀ (s2 s1 : Shape) (a : Data R), a.shape = sl ++ (sm ++ (s1 ++ s2)) →
    ((rollLast sl.length)^[s2.length] a).shape = sl ++ (s2 ++ (sm ++ s1)) ∧
    ∀ kl k2 km k1, kl.length = sl.length → k2.length = s2.length →
      ((rollLast sl.length)^[s2.length] a).get (kl ++ (k2 ++ (km ++ k1))) = a.get (kl ++ (km ++ (k1 ++ k2)))
  | [], s1, a, h => by
    refine ⟨by simpa using h, ?_⟩
    intro kl k2 km k1 _ h2
    have : k2 = [] := List.length_eq_zero_iff.1 h2
    subst this
    simp
  | b :: s2, s1, a, h => by
    obtain ⟨h1, h2⟩ := roll_iterate sl sm s2 (s1 ++ [b]) a (by simpa using h)
    rw [List.length_cons, Function.iterate_succ_apply']
    constructor
    · simp only [rollLast, h1, List.take_left, List.drop_left]
      rw [show s2 ++ (sm ++ (s1 ++ [b])) = (s2 ++ (sm ++ s1)) ++ [b] by simp, List.dropLast_concat, ← List.append_assoc]
      simp [List.getLastD_eq_getLast?]
    · intro kl k2 km k1 hkl hk2
      cases k2 with
      | nil => simp at hk2
      | cons i k2 =>
        simp only [rollLast]
        have e1 : (kl ++ (i :: k2 ++ (km ++ k1))).eraseIdx sl.length = kl ++ (k2 ++ (km ++ k1)) := by
          rw [← hkl, List.eraseIdx_append_of_length_le (Nat.le_refl _), Nat.sub_self]; rfl
        have e2 : (kl ++ (i :: k2 ++ (km ++ k1))).getD sl.length 0 = i := by
          rw [← hkl, List.getD_append_right _ _ _ _ (Nat.le_refl _), Nat.sub_self]; rfl
        rw [e1, e2, show kl ++ (k2 ++ (km ++ k1)) ++ [i] = kl ++ (k2 ++ (km ++ (k1 ++ [i]))) by simp,
          h2 kl k2 km (k1 ++ [i]) hkl (by simpa using hk2)]
        simp

theorem make_axes {data : Data R} {a b c : Shape} (r : Bool) (hs : data.shape = a ++ (b ++ c)) (hb : 1 ≤ b.length) (hc : 1 ≤ c.length) :
    ∃ f, make data c.length b.length r = some f ∧ f.Valid ∧ f.sl = a ∧ f.sm = b ∧ f.sn = c ∧ f.data = data ∧ f.rightward = r ∧
      f.naxesextra = a.length ∧ f.naxesout = b.length ∧ f.naxesin = c.length := by
  have hl : data.shape.length = a.length + b.length + c.length := by rw [hs]; simp; omega
  have ha : a.length + b.length + c.length - c.length - b.length = a.length := by omega
  refine ⟨⟨data, c.length, b.length, a.length, r⟩, ?_, ⟨by simp only; omega, hc, hb⟩, ?_, ?_, ?_, rfl, rfl, rfl, rfl, rfl⟩
  · unfold make
    rw [if_pos (by omega), hl, ha]
  · simp only [Dense.sl, hs, List.take_left]
  · simp only [Dense.sm, hs, List.drop_left, List.take_left]
  · simp only [Dense.sn, hs, List.drop_left]

/-- The operator returned by the rule of the transpose. -/
theorem transpose_axes {d : Dense R} (h : d.Valid) : ∃ f, d.transpose = some f ∧ f.Valid ∧ f.sl = d.sl ∧ f.sm = d.sn ∧ f.sn = d.sm ∧
    f.rightward = d.rightward ∧ f.naxesextra = d.naxesextra ∧ f.naxesin = d.naxesout ∧ f.naxesout = d.naxesin ∧
    ∀ kl kn km, kl.length = d.sl.length → kn.length = d.sn.length → f.data.get (kl ++ (kn ++ km)) = d.data.get (kl ++ (km ++ kn)) := by
  obtain ⟨l1, l2, l3⟩ := lengths h
  obtain ⟨h1, h2⟩ := roll_iterate d.sl d.sm d.sn [] d.data (by simpa using d.shape_eq)
  rw [List.append_nil, l1, l3] at h1
  obtain ⟨f, hf, hv, a1, a2, a3, a4, a5, a6, a7, a8⟩ := make_axes d.rightward h1 (by rw [l3]; exact h.pos) (by rw [l2]; exact h.posout)
  rw [l2, l3] at hf
  refine ⟨f, hf, hv, a1, a2, a3, a5, by rw [a6, l1], by rw [a8, l2], by rw [a7, l3], ?_⟩
  intro kl kn km hkl hkn
  have := h2 kl kn km [] hkl hkn
  rw [l1, l3] at this
  rw [a4]
  simpa using this

theorem sum_append [AddCommMonoid R] (s t : Shape) (g : MIndex → R) :
    ((enum (s ++ t)).map g).sum = ((enum s).map fun k => ((enum t).map fun l => g (k ++ l)).sum).sum := by
  rw [enum_append, sum_flatMap]
  simp [Function.comp_def]

/-- **C46.** The operator returned by the rule of the transpose is the adjoint, for the inputs along which only the blocks are
broadcast. -/
theorem C46_transpose {d : Dense R} (h : d.Valid) {x y : Data R} {pre post : Shape} (hx : x.shape = pre ++ (d.sn ++ post))
    (hy : y.shape = pre ++ (d.sm ++ post)) (hL : Layout d.rightward d.naxesextra pre post) (he : Broadcasts [pre, d.sl] pre)
    (h0 : post ≠ [] → pre.prod ≠ 0 ∧ d.sm.prod ≠ 0 ∧ d.sn.prod ≠ 0) :
    ∃ f z w, d.transpose = some f ∧ d.call x = some z ∧ f.call y = some w ∧ z.shape = y.shape ∧ w.shape = x.shape ∧
      inner z y = inner x w := by
  obtain ⟨f, hf, hv, a1, a2, a3, a4, a5, a6, a7, a8⟩ := transpose_axes h
  have he' := (C20_broadcast _ _).2 he
  obtain ⟨z, hz, hzs, hzg⟩ := call_layout h hx hL he' fun hp => by
    obtain ⟨p1, p2, p3⟩ := h0 hp
    exact ⟨Nat.mul_ne_zero p1 p3, Nat.mul_ne_zero p1 p2⟩
  obtain ⟨w, hw, hws, hwg⟩ := call_layout (x := y) (pre := pre) (post := post) (e := pre) hv (by rw [a3, hy])
      (by rw [a4, a5]; exact hL) (by rw [a1]; exact he') fun hp => by
    obtain ⟨p1, p2, p3⟩ := h0 hp
    exact ⟨Nat.mul_ne_zero p1 (by rw [a3]; exact p2), Nat.mul_ne_zero p1 (by rw [a2]; exact p3)⟩
  refine ⟨f, z, w, hf, hz, hw, by rw [hzs, hy], by rw [hws, hx, a2], ?_⟩
  have hin : Into d.sl pre := Into.of_right he'
  unfold inner
  rw [hzs, hx, sum_append, sum_append]
  congr 1
  apply List.map_congr_left
  intro k hk
  have hk := mem_enum.1 hk
  rw [sum_append, sum_append]
  have e1 : ((enum d.sm).map fun l => ((enum post).map fun m => z.get (k ++ (l ++ m)) * y.get (k ++ (l ++ m))).sum).sum =
      ((enum d.sm).map fun l => ((enum post).map fun m => ((enum d.sn).map fun n =>
        d.data.get (pick d.sl k ++ (l ++ n)) * x.get (k ++ (n ++ m)) * y.get (k ++ (l ++ m))).sum).sum).sum := by
    congr 1
    apply List.map_congr_left
    intro l hl
    congr 1
    apply List.map_congr_left
    intro m hm
    rw [hzg k l m hk (mem_enum.1 hl) (mem_enum.1 hm), pick_self hk, List.sum_map_mul_right]
  have e2 : ((enum d.sn).map fun n => ((enum post).map fun m => x.get (k ++ (n ++ m)) * w.get (k ++ (n ++ m))).sum).sum =
      ((enum d.sn).map fun n => ((enum post).map fun m => ((enum d.sm).map fun l =>
        d.data.get (pick d.sl k ++ (l ++ n)) * x.get (k ++ (n ++ m)) * y.get (k ++ (l ++ m))).sum).sum).sum := by
    congr 1
    apply List.map_congr_left
    intro n hn
    congr 1
    apply List.map_congr_left
    intro m hm
    rw [hwg k n m hk (by rw [a2]; exact mem_enum.1 hn) (mem_enum.1 hm), pick_self hk, a1, a3, ← List.sum_map_mul_left]
    congr 1
    apply List.map_congr_left
    intro l hl
    rw [a8 _ _ _ (Broadcast.inShape_length (pick_inShape hin hk)) (enum_length hn)]
    ring
  rw [e1, e2]
  simp only [sum_swap (enum post)]
  rw [sum_swap]

/-! ### Composition -/

omit [CommRing R] in
theorem broadcast_comm {a b e : Shape} (h : broadcastShapes [a, b] = some e) : broadcastShapes [b, a] = some e := by
  rw [C20_broadcast] at *
  have hm : ∀ s, s ∈ [a, b] ↔ s ∈ [b, a] := by intro s; simp [or_comm]
  refine ⟨fun s hs => h.le s ((hm s).2 hs), ?_, fun s hs => h.fits s ((hm s).2 hs), fun k => ?_⟩
  · obtain ⟨s, hs, hl⟩ := h.att
    exact ⟨s, (hm s).1 hs, hl⟩
  · rcases h.need k with q | ⟨s, hs, q⟩
    · exact Or.inl q
    · exact Or.inr ⟨s, (hm s).1 hs, q⟩

omit [CommRing R] in
theorem broadcast_exists {a b e : Shape} (h1 : Into a e) (h2 : Into b e) : ∃ u, broadcastShapes [a, b] = some u := by
  cases h : broadcastShapes [a, b] with
  | some u => exact ⟨u, rfl⟩
  | none =>
    exfalso
    rw [C20_failure] at h
    rcases h with h | ⟨s, hs, t, ht, k, a1, a2, a3⟩
    · cases h
    · have := h1.dims.2 k
      have := h2.dims.2 k
      simp only [List.mem_cons, List.not_mem_nil, or_false] at hs ht
      rcases hs with rfl | rfl <;> rcases ht with rfl | rfl <;> omega

/-- The operator returned by the rule of the composition. -/
theorem mul_axes {d e : Dense R} (hd : d.Valid) (he : e.Valid) (hs : d.sn = e.sm) {u : Shape} (hu : broadcastShapes [d.sl, e.sl] = some u) :
    ∃ f, d.mul e = some f ∧ f.Valid ∧ f.sl = u ∧ f.sm = d.sm ∧ f.sn = e.sn ∧ f.rightward = e.rightward ∧
      f.naxesextra = u.length ∧ ∀ kl km kn, inShape u kl = true → inShape d.sm km = true → inShape e.sn kn = true →
        f.data.get (kl ++ (km ++ kn)) = ((enum d.sn).map fun k =>
          d.data.get (pick d.sl kl ++ (km ++ k)) * e.data.get (pick e.sl kl ++ (k ++ kn))).sum := by
  obtain ⟨l1, l2, l3⟩ := lengths hd
  obtain ⟨m1, m2, m3⟩ := lengths he
  have hb : bshape e.sl.reverse d.sl.reverse = some u.reverse := by
    have := broadcast_comm hu
    rw [broadcastShapes_pair] at this
    obtain ⟨v, hv, rfl⟩ := Option.map_eq_some_iff.1 this
    rw [hv, List.reverse_reverse]
  -- the product of the merged arrays
  have key : ∃ a : Data R, (if e.naxesextra = 0 then some (dot d.merged e.merged d.sl d.sm.prod d.sn.prod e.sn.prod)
      else einsumM d.merged e.merged d.sl e.sl d.sm.prod d.sn.prod e.sn.prod) = some a ∧ a.shape = u ++ [d.sm.prod, e.sn.prod] ∧
      ∀ kl r c, inShape u kl = true → a.get (kl ++ [r, c]) = ((List.range d.sn.prod).map fun q =>
        d.merged.get (pick d.sl kl ++ [r, q]) * e.merged.get (pick e.sl kl ++ [q, c])).sum := by
    by_cases h0 : e.naxesextra = 0
    · have hes : e.sl = [] := List.length_eq_zero_iff.1 (by omega)
      have hus : d.sl = u := by
        rw [hes] at hb
        have : bshape ([] : Shape).reverse d.sl.reverse = some d.sl.reverse := by simp [bshape]
        rw [this] at hb
        exact List.reverse_injective (Option.some.inj hb)
      refine ⟨_, if_pos h0, by rw [dot, hus], ?_⟩
      intro kl r c hk
      simp only [dot]
      have e1 : (kl ++ [r, c]).dropLast = kl ++ [r] := by
        rw [show kl ++ [r, c] = (kl ++ [r]) ++ [c] by simp, List.dropLast_concat]
      have e2 : (kl ++ [r, c]).getLastD 0 = c := by simp [List.getLastD_eq_getLast?]
      rw [e1, e2, hus, pick_self hk, hes]
      simp [pick, bindex]
    · refine ⟨_, (if_neg h0).trans (by rw [einsumM, hb, Option.map_some]), by simp, ?_⟩
      intro kl r c hk
      have e1 : (kl ++ [r, c]).dropLast = kl ++ [r] := by
        rw [show kl ++ [r, c] = (kl ++ [r]) ++ [c] by simp, List.dropLast_concat]
      have e2 : (kl ++ [r, c]).getLastD 0 = c := by simp [List.getLastD_eq_getLast?]
      have e3 : (kl ++ [r]).getLastD 0 = r := by simp [List.getLastD_eq_getLast?]
      simp only [e1, e2, e3, List.dropLast_concat]
  obtain ⟨a, ha, has, hag⟩ := key
  have hdl : a.shape.dropLast.dropLast = u := by
    rw [has, show u ++ [d.sm.prod, e.sn.prod] = (u ++ [d.sm.prod]) ++ [e.sn.prod] by simp, List.dropLast_concat, List.dropLast_concat]
  obtain ⟨f, hf, hv, a1, a2, a3, a4, a5, a6, a7, a8⟩ := make_axes (data := reshape a (u ++ (d.sm ++ e.sn))) e.rightward rfl
    (by rw [l2]; exact hd.posout) (by rw [m3]; exact he.pos)
  refine ⟨f, ?_, hv, a1, a2, a3, a5, a6, ?_⟩
  · unfold Dense.mul
    rw [if_neg (by simpa using hs)]
    simp only [ha, hdl]
    rw [← hf, l2, m3]
  intro kl km kn hkl hkm hkn
  rw [a4, reshape_split₂ a has hkl hkm hkn, hag _ _ _ hkl, ← sum_unravel]
  congr 1
  apply List.map_congr_left
  intro q hq
  have hq := List.mem_range.1 hq
  rw [merged_get d (pick_inShape (Into.of_left hu) hkl) (ravel_lt hkm) hq,
    merged_get e (pick_inShape (Into.of_right hu) hkl) (by rw [← hs]; exact hq) (ravel_lt hkn), unravel_ravel hkm, unravel_ravel hkn, hs]

omit [CommRing R] in
theorem layout_unique {r : Bool} {n : Nat} {pre pre' s s' post post' : Shape} (h : pre ++ (s ++ post) = pre' ++ (s' ++ post'))
    (hs : s.length = s'.length) (h1 : Layout r n pre post) (h2 : Layout r n pre' post') : pre = pre' ∧ s = s' ∧ post = post' := by
  have hl := congrArg List.length h
  simp only [List.length_append] at hl
  have hpp : pre.length = pre'.length := by
    rcases h1 with ⟨rfl, h1⟩ | ⟨h1, h3, h5⟩ <;> rcases h2 with ⟨rfl, h2⟩ | ⟨h2, h4, h6⟩
    · simp at hl; omega
    · have := List.length_pos_iff.2 h6
      rcases h1 with h1 | h1
      · rw [h1] at h2; cases h2
      · simp at hl; omega
    · have := List.length_pos_iff.2 h5
      rcases h2 with h2 | h2
      · rw [h2] at h1; cases h1
      · simp at hl; omega
    · omega
  obtain ⟨e1, e2⟩ := List.append_inj h hpp
  obtain ⟨e3, e4⟩ := List.append_inj e2 hs
  exact ⟨e1, e3, e4⟩

/-- The operators broadcast their blocks along the same axes of the input. -/
def Agree (d e : Dense R) (x : Data R) : Prop :=
  (d.rightward = false ∧ e.rightward = false) ∨ (d.rightward = true ∧ e.rightward = true ∧ d.naxesextra = e.naxesextra) ∨
  (x.shape.length ≤ e.naxesextra + e.naxesin ∧ e.naxesextra ≤ d.naxesextra)

/-- **C46.** If the output axes of the second operator are the input axes of the first one, and if the operators broadcast their blocks
along the same axes, the simplification of the composition has the effect of the composition.  Missing: the other cases, see
C46_mixed_fails, C46_rightward_fails and C46_axes_fails. -/
theorem C46_compose_partial {d e : Dense R} (hd : d.Valid) (he : e.Valid) {x y z : Data R} (hs : d.sn = e.sm) (hA : Agree d e x)
    (hy : e.call x = some y) (hz : d.call y = some z) : ∃ f w, d.mul e = some f ∧ f.call x = some w ∧ Same w z := by
  obtain ⟨l1, l2, l3⟩ := lengths hd
  obtain ⟨m1, m2, m3⟩ := lengths he
  obtain ⟨pre, post, e1, hx, hL, hb1, h01⟩ := call_inv he hy
  obtain ⟨y', hy', hys, hyg⟩ := call_layout he hx hL hb1 h01
  rw [hy] at hy'
  cases hy'
  obtain ⟨pre', post', e2, hx', hL', hb2, h02⟩ := call_inv hd hz
  obtain ⟨z', hz', hzs, hzg⟩ := call_layout hd hx' hL' hb2 h02
  rw [hz] at hz'
  cases hz'
  have lx : x.shape.length = pre.length + e.naxesin + post.length := by rw [hx]; simp; omega
  have le1 : e1.length = max pre.length e.naxesextra := by
    have hB := (C20_broadcast _ _).1 hb1
    have q1 := hB.le pre (by simp)
    have q2 := hB.le e.sl (by simp)
    obtain ⟨s, hs, ht⟩ := hB.att
    simp only [List.mem_cons, List.not_mem_nil, or_false] at hs
    rcases hs with rfl | rfl <;> omega
  -- the layout of the intermediate array
  have hL1 : Layout d.rightward d.naxesextra e1 post := by
    rcases hA with ⟨a1, a2⟩ | ⟨a1, a2, a3⟩ | ⟨a1, a2⟩
    · rcases hL with ⟨p1, p2⟩ | ⟨p1, _⟩
      · exact Or.inl ⟨p1, Or.inl a1⟩
      · rw [a2] at p1; cases p1
    · rcases hL with ⟨p1, p2⟩ | ⟨p1, p2, p3⟩
      · refine Or.inl ⟨p1, Or.inr ?_⟩
        rcases p2 with p2 | p2
        · rw [a2] at p2; cases p2
        · omega
      · exact Or.inr ⟨a1, by omega, p3⟩
    · rcases hL with ⟨p1, p2⟩ | ⟨p1, p2, p3⟩
      · subst p1; simp at lx; exact Or.inl ⟨rfl, Or.inr (by omega)⟩
      · have := List.length_pos_iff.2 p3; omega
  rw [hys, ← hs] at hx'
  obtain ⟨rfl, -, rfl⟩ := layout_unique hx' rfl hL1 hL'
  have i1 : Into e.sl e1 := Into.of_right hb1
  have i2 : Into d.sl e2 := Into.of_right hb2
  have i3 : Into e1 e2 := Into.of_left hb2
  have i4 : Into e.sl e2 := by
    obtain ⟨d1, d2⟩ := i1.dims
    obtain ⟨d3, d4⟩ := i3.dims
    refine fits_of_dims (by simp; omega) fun k => ?_
    have := d2 k; have := d4 k
    simp only [dimAt] at *
    omega
  obtain ⟨u, hu⟩ := broadcast_exists i2 i4
  obtain ⟨f, hf, hv, b1, b2, b3, b4, b5, b6⟩ := mul_axes hd he hs hu
  have lu : u.length = max d.naxesextra e.naxesextra := by
    have hB := (C20_broadcast _ _).1 hu
    have q1 := hB.le d.sl (by simp)
    have q2 := hB.le e.sl (by simp)
    obtain ⟨s, hs, ht⟩ := hB.att
    simp only [List.mem_cons, List.not_mem_nil, or_false] at hs
    rcases hs with rfl | rfl <;> omega
  have hb3 : broadcastShapes [pre, u] = some e2 := broadcast_assoc hb1 hb2 hu
  have hLf : Layout f.rightward f.naxesextra pre post := by
    rw [b4, b5]
    rcases hA with ⟨a1, a2⟩ | ⟨a1, a2, a3⟩ | ⟨a1, a2⟩
    · rcases hL with ⟨p1, p2⟩ | ⟨p1, _⟩
      · exact Or.inl ⟨p1, Or.inl a2⟩
      · rw [a2] at p1; cases p1
    · rcases hL with ⟨p1, p2⟩ | ⟨p1, p2, p3⟩
      · refine Or.inl ⟨p1, Or.inr ?_⟩
        rcases p2 with p2 | p2
        · rw [a2] at p2; cases p2
        · omega
      · exact Or.inr ⟨a2, by omega, p3⟩
    · rcases hL with ⟨p1, p2⟩ | ⟨p1, p2, p3⟩
      · subst p1; simp at lx; exact Or.inl ⟨rfl, Or.inr (by omega)⟩
      · have := List.length_pos_iff.2 p3; omega
  obtain ⟨w, hw, hws, hwg⟩ := call_layout (x := x) (pre := pre) (post := post) (e := e2) hv (by rw [b3, hx]) hLf (by rw [b1]; exact hb3)
    fun hp => by
      rw [b2, b3]
      exact ⟨(h01 hp).1, (h02 hp).2⟩
  refine ⟨f, w, hf, hw, by rw [hws, hzs, b2], ?_⟩
  intro k hk
  rw [hws] at hk
  -- the multi-indices of the output
  obtain ⟨k1, k', rfl, hk1, hk'⟩ : ∃ k1 k', k = k1 ++ k' ∧ inShape e2 k1 = true ∧ inShape (f.sm ++ post) k' = true := by
    have := (inShape_glue (b := .leftward) (s := e2) (t := f.sm ++ post) (k := k)).1 (by simpa [glue] using hk)
    simpa [glue] using this
  obtain ⟨l, m, rfl, hl, hm⟩ : ∃ l m, k' = l ++ m ∧ inShape f.sm l = true ∧ inShape post m = true := by
    have := (inShape_glue (b := .leftward) (s := f.sm) (t := post) (k := k')).1 (by simpa [glue] using hk')
    simpa [glue] using this
  have hl' : inShape d.sm l = true := by rw [← b2]; exact hl
  have iu : Into u e2 := Into.of_right hb3
  rw [hwg k1 l m hk1 hl hm, hzg k1 l m hk1 hl' hm, b1, b3]
  have hpu := pick_inShape iu hk1
  have hpe := pick_inShape i3 hk1
  have e1' : ((enum e.sn).map fun n => f.data.get (pick u k1 ++ (l ++ n)) * x.get (pick pre k1 ++ (n ++ m))).sum =
      ((enum e.sn).map fun n => ((enum d.sn).map fun q => d.data.get (pick d.sl k1 ++ (l ++ q)) *
        (e.data.get (pick e.sl k1 ++ (q ++ n)) * x.get (pick pre k1 ++ (n ++ m)))).sum).sum := by
    congr 1
    apply List.map_congr_left
    intro n hn
    rw [b6 _ _ _ hpu hl' (mem_enum.1 hn), ← List.sum_map_mul_right, pick_pick (Into.of_left hu), pick_pick (Into.of_right hu)]
    congr 1
    apply List.map_congr_left
    intro q _
    ring
  have e2' : ((enum d.sn).map fun q => d.data.get (pick d.sl k1 ++ (l ++ q)) * y.get (pick e1 k1 ++ (q ++ m))).sum =
      ((enum d.sn).map fun q => ((enum e.sn).map fun n => d.data.get (pick d.sl k1 ++ (l ++ q)) *
        (e.data.get (pick e.sl k1 ++ (q ++ n)) * x.get (pick pre k1 ++ (n ++ m)))).sum).sum := by
    congr 1
    apply List.map_congr_left
    intro q hq
    rw [hyg _ _ _ hpe (by rw [← hs]; exact mem_enum.1 hq) hm, ← List.sum_map_mul_left, pick_pick i1,
      pick_pick (Into.of_left hb1)]
  rw [e1', e2', sum_swap]

/-! ### Product by a scalar -/

/-- **C46.** The simplification of the composition of a dense operator and of a homothety has the effect of the composition, for
leftward broadcasts and for inputs without additional dimensions.  Missing: rightward broadcasts, see C46_homothety_fails. -/
theorem C46_homothety_partial {d : Dense R} (h : d.Valid) (c : R) {x z : Data R} (hr : d.rightward = false ∨
    x.shape.length ≤ d.naxesextra + d.naxesin) (hz : d.call ⟨x.shape, fun k => c * x.get k⟩ = some z) :
    ∃ f w, d.homothety c = some f ∧ f.call x = some w ∧ Same w z := by
  obtain ⟨l1, l2, l3⟩ := lengths h
  obtain ⟨pre, post, e, hx, hL, hb, h0⟩ := call_inv h hz
  obtain ⟨z', hz', hzs, hzg⟩ := call_layout h hx hL hb h0
  rw [hz] at hz'
  cases hz'
  simp only at hx
  have hpost : post = [] := by
    rcases hL with ⟨p, _⟩ | ⟨p1, p2, p3⟩
    · exact p
    · exfalso
      rcases hr with hr | hr
      · rw [hr] at p1; cases p1
      · have := List.length_pos_iff.2 p3
        rw [hx] at hr
        simp at hr
        omega
  subst hpost
  obtain ⟨f, hf, hv, a1, a2, a3, a4, a5, a6, a7, a8⟩ := make_axes (data := ⟨d.data.shape, fun k => c * d.data.get k⟩) false d.shape_eq
    (by rw [l2]; exact h.posout) (by rw [l3]; exact h.pos)
  obtain ⟨w, hw, hws, hwg⟩ := call_layout (x := x) (pre := pre) (post := []) (e := e) hv (by rw [a3, hx]) (Or.inl ⟨rfl, Or.inl a5⟩)
    (by rw [a1]; exact hb) fun hp => absurd rfl hp
  rw [l2, l3] at hf
  refine ⟨f, w, hf, hw, by rw [hws, hzs, a2], ?_⟩
  intro k hk
  rw [hws] at hk
  obtain ⟨k1, l, rfl, hk1, hl⟩ : ∃ k1 k', k = k1 ++ k' ∧ inShape e k1 = true ∧ inShape (f.sm ++ []) k' = true := by
    have := (inShape_glue (b := .leftward) (s := e) (t := f.sm ++ []) (k := k)).1 (by simpa [glue] using hk)
    simpa [glue] using this
  rw [List.append_nil] at hl
  have g1 := hwg k1 l [] hk1 hl rfl
  have g2 := hzg k1 l [] hk1 (by rw [← a2]; exact hl) rfl
  simp only [List.append_nil] at g1 g2
  rw [g1, g2, a1, a3, a4]
  congr 1
  apply List.map_congr_left
  intro n _
  ring

/-- **C46.** The check of the constructor accepts the input shapes of leftward broadcasts for which the transpose is the adjoint.
Missing: rightward broadcasts, see C46_shapein_fails. -/
theorem C46_shapein_partial {d : Dense R} (h : d.Valid) {pre : Shape} : d.checkShapein (pre ++ d.sn) = true ↔ Broadcasts [pre, d.sl] pre := by
  obtain ⟨l1, l2, l3⟩ := lengths h
  rw [← C20_broadcast]
  unfold Dense.checkShapein
  rw [List.length_append, l3, Nat.add_sub_cancel, List.take_left]
  simp

/-! ### Counter-examples and examples -/

/-- An array of integers, given by its values in C order. -/
def array (s : Shape) (l : List Int) : Data Int := ⟨s, fun k => l.getD (ravel s k) 0⟩

/-- The shape and the values in C order of a result. -/
def values (o : Option (Data Int)) : Option (Shape × List Int) := o.map fun y => (y.shape, y.flat)

/-- **C46 does not hold** if a rightward broadcast follows a leftward one: the result of the rule is a leftward broadcast. -/
theorem C46_mixed_fails : ∃ (d e : Dense Int) (x : Data Int) (r s : Shape × List Int), d.Valid ∧ e.Valid ∧ d.sn = e.sm ∧
    values ((e.call x).bind d.call) = some r ∧ values ((d.mul e).bind (·.call x)) = some s ∧ r ≠ s :=
  ⟨⟨array [2, 2] [0, 1, 0, 0], 1, 1, 0, true⟩, ⟨array [2, 2] [1, 0, 0, 1], 1, 1, 0, false⟩, array [2, 2] [1, 2, 3, 4],
    ([2, 2], [3, 4, 0, 0]), ([2, 2], [2, 0, 4, 0]), ⟨rfl, by decide, by decide⟩, ⟨rfl, by decide, by decide⟩, by decide, by decide, by decide,
    by decide⟩

/-- **C46 does not hold** for rightward broadcasts with different numbers of extra dimensions. -/
theorem C46_rightward_fails : ∃ (d e : Dense Int) (x : Data Int) (r s : Shape × List Int), d.Valid ∧ e.Valid ∧ d.sn = e.sm ∧
    d.rightward = true ∧ e.rightward = true ∧
    values ((e.call x).bind d.call) = some r ∧ values ((d.mul e).bind (·.call x)) = some s ∧ r ≠ s :=
  ⟨⟨array [2, 2] [0, 1, 0, 0], 1, 1, 0, true⟩, ⟨array [2, 2, 2] [1, 0, 0, 1, 1, 0, 0, 1], 1, 1, 1, true⟩, array [2, 2] [1, 2, 3, 4],
    ([2, 2], [3, 4, 0, 0]), ([2, 2], [2, 0, 4, 0]), ⟨rfl, by decide, by decide⟩, ⟨rfl, by decide, by decide⟩, by decide, rfl, rfl, by decide,
    by decide, by decide⟩

/-- **C46 does not hold** if the output axes of the second operator are not the input axes of the first one: the rule raises a
ValueError although the operators can be composed. -/
theorem C46_axes_fails : ∃ (d e : Dense Int) (x : Data Int) (r : Shape × List Int), d.Valid ∧ e.Valid ∧
    d.rightward = false ∧ e.rightward = false ∧ values ((e.call x).bind d.call) = some r ∧ (d.mul e).isNone = true :=
  ⟨⟨array [1, 2] [1, 10], 1, 1, 0, false⟩, ⟨array [3, 2, 1] [1, 2, 3, 4, 5, 6], 1, 2, 0, false⟩, array [1] [1], ([3, 1], [21, 43, 65]),
    ⟨rfl, by decide, by decide⟩, ⟨rfl, by decide, by decide⟩, rfl, rfl, by decide, by decide⟩

/-- **C46 does not hold** for the product by a scalar of an operator with a rightward broadcast. -/
theorem C46_homothety_fails : ∃ (d : Dense Int) (c : Int) (x : Data Int) (r s : Shape × List Int), d.Valid ∧
    values (d.call ⟨x.shape, fun k => c * x.get k⟩) = some r ∧ values ((d.homothety c).bind (·.call x)) = some s ∧ r ≠ s :=
  ⟨⟨array [2, 2] [0, 1, 0, 0], 1, 1, 0, true⟩, 2, array [2, 2] [1, 2, 3, 4], ([2, 2], [6, 8, 0, 0]), ([2, 2], [4, 0, 8, 0]),
    ⟨rfl, by decide, by decide⟩, by decide, by decide, by decide⟩

/-- **C46 does not hold** for inputs that are broadcast: the transpose does not return an array of the shape of the input. -/
theorem C46_input_fails : ∃ (d f : Dense Int) (x : Data Int) (s : Shape) (l : List Int), d.Valid ∧ d.transpose = some f ∧
    values ((d.call x).bind f.call) = some (s, l) ∧ s ≠ x.shape :=
  ⟨⟨array [2, 1, 1] [1, 2], 1, 1, 1, false⟩, _, array [1] [1], [2, 1], [1, 4], ⟨rfl, by decide, by decide⟩, rfl, by decide, by decide⟩

/-- **C46 does not hold** for explicit input shapes with rightward broadcasts: the constructor rejects shapes for which the operator
can be called and transposed. -/
theorem C46_shapein_fails : ∃ (d : Dense Int) (x : Data Int) (s : Shape) (l : List Int), d.Valid ∧ values (d.call x) = some (s, l) ∧
    values ((d.call x).bind fun y => d.transpose.bind (·.call y)) = some (x.shape, l) ∧ d.checkShapein x.shape = false :=
  ⟨⟨array [2, 1, 1] [1, 1], 1, 1, 1, true⟩, array [2, 1, 3] [1, 2, 3, 4, 5, 6], [2, 1, 3], [1, 2, 3, 4, 5, 6], ⟨rfl, by decide, by decide⟩,
    by decide, by decide, by decide⟩

/-- **C46 does not hold** for empty blocks with rightward broadcasts, which raise. -/
theorem C46_empty_fails : ∃ (d : Dense Int) (x : Data Int), d.Valid ∧ d.validatein x.shape = true ∧ (d.call x).isNone = true :=
  ⟨⟨array [0, 2] [], 1, 1, 0, true⟩, array [2, 2] [1, 2, 3, 4], ⟨rfl, by decide, by decide⟩, by decide, by decide⟩

/-- Meeting the hypotheses of C46_direct, C46_compose_partial and C46_homothety_partial: blocks over two input axes, broadcast. -/
example : let d : Dense Int := ⟨array [2, 1, 2] [1, 2, 3, 4], 1, 1, 1, false⟩
    let e : Dense Int := ⟨array [1, 2, 2, 2] [1, 0, 0, 1, 1, 1, 1, 1], 2, 1, 1, false⟩
    let x := array [3, 1, 2, 2] [1, 2, 3, 4, 5, 6, 7, 8, 9, 10, 11, 12]
    values (e.call x) = some ([3, 1, 2], [5, 10, 13, 26, 21, 42]) ∧
    values ((e.call x).bind d.call) = some ([3, 2, 1], [25, 55, 65, 143, 105, 231]) ∧
    values ((d.mul e).bind (·.call x)) = some ([3, 2, 1], [25, 55, 65, 143, 105, 231]) ∧ d.sn = e.sm ∧ Agree d e x :=
  ⟨by decide, by decide, by decide, by decide, Or.inl ⟨rfl, rfl⟩⟩

/-- Meeting the hypotheses of C46_transpose with a rightward broadcast. -/
example : let d : Dense Int := ⟨array [1, 1, 2] [3, 5], 1, 1, 1, true⟩
    let x := array [2, 2, 2] [1, 2, 3, 4, 5, 6, 7, 8]
    values (d.call x) = some ([2, 1, 2], [18, 26, 50, 58]) ∧ x.shape = [2] ++ (d.sn ++ [2]) ∧ Layout d.rightward d.naxesextra [2] [2] ∧
    Broadcasts [[2], d.sl] [2] :=
  ⟨by decide, by decide, Or.inr ⟨rfl, rfl, by decide⟩, (C20_broadcast _ _).1 (by decide)⟩

end Verif.Linear.Dense
