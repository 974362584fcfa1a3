import Verif.Simplify.Commutative
import Mathlib.Algebra.BigOperators.Group.List.Basic
import Mathlib.Algebra.Order.Ring.Int
import Mathlib.Data.List.Nodup
import Mathlib.Tactic.Ring
import Mathlib.Tactic.Linarith

/-
Properties C15 (simplification of the sums), C54 and C55 (BlockSliceOperator).
-/

namespace Verif.Simplify

variable {Op M : Type}

section sum

variable [AddCommMonoid M]

/-- The effect of a sum of operands. -/
def total (val : Op → M) (ops : List Op) : M := (ops.map val).sum

/-- The rules in force replace two operands by an operator equal to their sum, and the homotheties with zero data
contribute nothing. -/
structure CSound (val : Op → M) (t : CTable Op) : Prop where
  act : ∀ o rs, t.rules o = some rs → ∀ r ∈ rs, ∀ o' new, r o o' = some new → val new = val o + val o'
  zero : ∀ o, t.isHomothety o = true → t.isZero o = true → val o = 0

theorem applyFirst_mem (rs : List (Op → Op → Option Op)) (a b new : Op) (h : applyFirst rs a b = some new) :
    ∃ r ∈ rs, r a b = some new := by
  obtain ⟨r, hr, ha⟩ := List.exists_of_findSome?_eq_some h
  exact ⟨r, hr, ha⟩

theorem scan_some (rs : List (Op → Op → Option Op)) (ops : List Op) (oi : Op) (i : Nat) (l : List Op) (n j : Nat)
    (new : Op) (h : scan rs ops oi i n l = some (j, new)) :
    j ≠ i ∧ n ≤ j ∧ ∃ oj, l[j - n]? = some oj ∧ applyFirst rs oi oj = some new := by
  induction l generalizing n with
  | nil => simp [scan] at h
  | cons o l ih =>
    unfold scan at h
    split at h
    · obtain ⟨h1, h2, oj, h3, h4⟩ := ih _ h
      refine ⟨h1, by omega, oj, ?_, h4⟩
      have : j - n = (j - (n + 1)) + 1 := by omega
      rw [this]
      simpa using h3
    · rename_i hne
      split at h
      · rename_i new' hn
        cases h
        exact ⟨hne, Nat.le_refl _, o, by simp, hn⟩
      · obtain ⟨h1, h2, oj, h3, h4⟩ := ih _ h
        refine ⟨h1, by omega, oj, ?_, h4⟩
        have : j - n = (j - (n + 1)) + 1 := by omega
        rw [this]
        simpa using h3

theorem scan_none (rs : List (Op → Op → Option Op)) (ops : List Op) (oi : Op) (i : Nat) (l : List Op) (n : Nat)
    (h : scan rs ops oi i n l = none) (j : Nat) (oj : Op) (hj : l[j]? = some oj) (hne : n + j ≠ i) :
    applyFirst rs oi oj = none := by
  induction l generalizing n j with
  | nil => simp at hj
  | cons o l ih =>
    unfold scan at h
    cases j with
    | zero =>
      have : ¬ n = i := by omega
      rw [if_neg this] at h
      simp at hj
      subst hj
      split at h
      · cases h
      · assumption
    | succ j =>
      have hrec : scan rs ops oi i (n + 1) l = none := by
        split at h
        · exact h
        · split at h
          · cases h
          · exact h
      exact ih (n + 1) hrec j (by simpa using hj) (by omega)

theorem sum_eraseIdx (val : Op → M) (ops : List Op) (j : Nat) (o : Op) (h : ops[j]? = some o) :
    total val ops = val o + total val (ops.eraseIdx j) := by
  induction ops generalizing j with
  | nil => simp at h
  | cons a ops ih =>
    cases j with
    | zero =>
      simp at h
      subst h
      simp [total]
    | succ j =>
      have := ih j (by simpa using h)
      simp only [total, List.eraseIdx_cons_succ, List.map_cons, List.sum_cons] at this ⊢
      rw [this, add_left_comm]

theorem sum_set (val : Op → M) (ops : List Op) (i : Nat) (o new : Op) (h : ops[i]? = some o) :
    total val (ops.set i new) = val new + total val (ops.eraseIdx i) := by
  have := sum_eraseIdx val (ops.set i new) i new (by
    obtain ⟨hi, _⟩ := List.getElem?_eq_some_iff.1 h
    simp [hi])
  rw [this, List.eraseIdx_set_eq]

/-- The index of the operand i after the removal of the operand j ≠ i. -/
theorem get_erase (ops : List Op) (i j : Nat) (oi : Op) (hi : ops[i]? = some oi) (hne : j ≠ i) :
    (ops.eraseIdx j)[if j < i then i - 1 else i]? = some oi := by
  rw [List.getElem?_eraseIdx]
  split
  · rw [if_neg (by omega)]
    rw [show i - 1 + 1 = i by omega]
    exact hi
  · rw [if_pos (by omega)]
    exact hi

theorem step_total (val : Op → M) (t : CTable Op) (hs : CSound val t) (ops : List Op) (i : Nat) (oi : Op)
    (hi : ops[i]? = some oi) : total val (t.step ops i oi).1 = total val ops := by
  unfold CTable.step
  split
  · rfl
  · rename_i rs hrs
    split
    · rfl
    · rename_i j new hsc
      obtain ⟨hne, _, oj, hoj, hf⟩ := scan_some rs ops oi i ops 0 j new hsc
      obtain ⟨r, hr, ha⟩ := applyFirst_mem rs oi oj new hf
      have hval := hs.act oi rs hrs r hr oj new ha
      simp only [Nat.sub_zero] at hoj
      have hge := get_erase ops i j oi hi hne
      dsimp only
      rw [sum_set val _ _ oi new hge, hval]
      rw [sum_eraseIdx val ops j oj hoj, sum_eraseIdx val (ops.eraseIdx j) _ oi hge]
      rw [add_comm (val oi), add_assoc]

theorem loop_total (val : Op → M) (t : CTable Op) (hs : CSound val t) (fuel : Nat) (ops : List Op) (i : Nat)
    (res : List Op) (h : t.loop fuel ops i = some res) : total val res = total val ops := by
  induction fuel generalizing ops i with
  | zero =>
    unfold CTable.loop at h
    split at h
    · cases h; rfl
    · cases h
  | succ fuel ih =>
    unfold CTable.loop at h
    split at h
    · cases h; rfl
    · rename_i oi hoi
      exact (ih _ _ h).trans (step_total val t hs ops i oi hoi)

theorem move_total (val : Op → M) (t : CTable Op) (hs : CSound val t) (ops : List Op) :
    total val (t.moveHomothety ops) = total val ops := by
  unfold CTable.moveHomothety
  split
  · rfl
  · rename_i k hk
    split
    · rfl
    · rename_i o ho
      have hh : t.isHomothety o = true := by
        obtain ⟨hlt, hp, _⟩ := List.findIdx?_eq_some_iff_getElem.1 hk
        obtain ⟨_, e⟩ := List.getElem?_eq_some_iff.1 ho
        rw [← e]; exact hp
      have e1 : total val ((o :: ops).eraseIdx (k + 1)) = total val ops := by
        rw [List.eraseIdx_cons_succ, sum_eraseIdx val ops k o ho]
        simp [total]
      dsimp only
      split
      · rename_i hz
        simp only [Bool.and_eq_true] at hz
        have hv := hs.zero o hh hz.1
        rw [← e1]
        simp only [List.eraseIdx_cons_succ, List.eraseIdx_cons_zero, total, List.map_cons, List.sum_cons, hv, zero_add]
      · exact e1

/-- C15: when every rule in force replaces two operands by an operator equal to their sum, the operands obtained by the
simplification have the same sum as the operands that were written. -/
theorem C15_sum_preserved (val : Op → M) (t : CTable Op) (hs : CSound val t) (disabled : Bool) (fuel : Nat)
    (ops res : List Op) (h : t.applyRules disabled fuel ops = some res) : total val res = total val ops := by
  unfold CTable.applyRules at h
  split at h
  · cases h; rfl
  split at h
  · cases h; rfl
  · cases hl : t.loop fuel ops 0 with
    | none => rw [hl] at h; cases h
    | some l =>
      rw [hl] at h
      cases h
      rw [move_total val t hs, loop_total val t hs fuel ops 0 l hl]

end sum

theorem step_measure (t : CTable Op) (ops : List Op) (i : Nat) (oi : Op) (hi : ops[i]? = some oi) :
    2 * (t.step ops i oi).1.length + i < 2 * ops.length + (t.step ops i oi).2 := by
  unfold CTable.step
  split
  · dsimp only; omega
  · rename_i rs hrs
    split
    · dsimp only; omega
    · rename_i j new hsc
      obtain ⟨hne, _, oj, hoj, hf⟩ := scan_some rs ops oi i ops 0 j new hsc
      simp only [Nat.sub_zero] at hoj
      obtain ⟨hj, _⟩ := List.getElem?_eq_some_iff.1 hoj
      dsimp only
      rw [List.length_set, List.length_eraseIdx_of_lt hj]
      split <;> omega

theorem loop_terminates' (t : CTable Op) (fuel : Nat) (ops : List Op) (i : Nat)
    (h : 2 * ops.length ≤ fuel + i) : ∃ res, t.loop fuel ops i = some res := by
  induction fuel generalizing ops i with
  | zero =>
    unfold CTable.loop
    have : ops[i]? = none := List.getElem?_eq_none (by omega)
    rw [this]
    exact ⟨_, rfl⟩
  | succ fuel ih =>
    unfold CTable.loop
    split
    · exact ⟨_, rfl⟩
    · rename_i oi hoi
      have hm := step_measure t ops i oi hoi
      exact ih _ _ (by omega)

/-- C15: the simplification of a sum always ends, after at most twice as many iterations as there are operands, whatever
the rules. -/
theorem C15_terminates (t : CTable Op) (disabled : Bool) (ops : List Op) :
    ∃ res, t.applyRules disabled (2 * ops.length) ops = some res := by
  unfold CTable.applyRules
  split
  · exact ⟨_, rfl⟩
  split
  · exact ⟨_, rfl⟩
  · obtain ⟨res, h⟩ := loop_terminates' t (2 * ops.length) ops 0 (by omega)
    rw [h]
    exact ⟨_, rfl⟩

/-- C15: a sum is never left without operands. -/
theorem C15_nonempty (t : CTable Op) (disabled : Bool) (fuel : Nat) (ops res : List Op) (hne : ops ≠ [])
    (h : t.applyRules disabled fuel ops = some res) : res ≠ [] := by
  have step_ne : ∀ (ops : List Op) (i : Nat) (oi : Op), ops[i]? = some oi → (t.step ops i oi).1 ≠ [] := by
    intro ops i oi hi
    have hops : ops ≠ [] := by rintro rfl; simp at hi
    unfold CTable.step
    split
    · exact hops
    · split
      · exact hops
      · rename_i rs hrs _ j new hsc
        obtain ⟨hj, _, oj, hoj, _⟩ := scan_some rs ops oi i ops 0 j new hsc
        have hge := get_erase ops i j oi hi hj
        intro e
        simp only [List.set_eq_nil_iff] at e
        rw [e] at hge
        simp at hge
  have loop_ne : ∀ (fuel : Nat) (ops : List Op) (i : Nat) (l : List Op), ops ≠ [] → t.loop fuel ops i = some l → l ≠ [] := by
    intro fuel
    induction fuel with
    | zero =>
      intro ops i l hops hl
      unfold CTable.loop at hl
      split at hl
      · cases hl; exact hops
      · cases hl
    | succ fuel ih =>
      intro ops i l hops hl
      unfold CTable.loop at hl
      split at hl
      · cases hl; exact hops
      · rename_i oi hoi
        exact ih _ _ l (step_ne ops i oi hoi) hl
  unfold CTable.applyRules at h
  split at h
  · cases h; exact hne
  split at h
  · cases h; exact hne
  · cases hl : t.loop fuel ops 0 with
    | none => rw [hl] at h; cases h
    | some l =>
      rw [hl] at h
      cases h
      have hl' := loop_ne fuel ops 0 l hne hl
      unfold CTable.moveHomothety
      split
      · exact hl'
      · split
        · exact hl'
        · dsimp only
          split
          · rename_i hz
            simp only [Bool.and_eq_true, decide_eq_true_eq] at hz
            intro e
            have := congrArg List.length e
            simp only [List.eraseIdx_cons_succ, List.eraseIdx_cons_zero, List.length_nil, List.length_cons] at this hz
            omega
          · simp

/-- Non-trivial instance: integers with the rule that merges two integers of the same sign; the homotheties are the
multiples of ten. -/
def intCTable : CTable Int :=
  { rules := fun a => if a = 0 then none else some [fun a b => if 0 < a * b then some (a + b) else none]
    isHomothety := fun a => a % 10 == 0
    isZero := fun a => a == 0 }

theorem intCTable_sound : CSound (fun z : Int => z) intCTable where
  act := by
    intro o rs hrs r hr o' new h
    simp only [intCTable] at hrs
    split at hrs
    · cases hrs
    · cases hrs
      simp only [List.mem_singleton] at hr
      subst hr
      dsimp only at h
      split at h
      · cases h; rfl
      · cases h
  zero := by
    intro o _ h
    simpa [intCTable] using h

example : ∃ res, intCTable.applyRules false 8 [2, -3, 8, -4] = some res ∧
    total (fun z : Int => z) res = total (fun z : Int => z) [2, -3, 8, -4] := by
  obtain ⟨res, h⟩ := C15_terminates intCTable false [2, -3, 8, -4]
  exact ⟨res, h, C15_sum_preserved _ _ intCTable_sound _ _ _ _ h⟩

/-! ### BlockSliceOperator -/

/-- What the block slice operator is documented to compute: the operands on their slices, the other elements copied. -/
def IsBlockSlice (slices : List Slice) (ops : List SliceOp) (x out : Nat → Int) : Prop :=
  (∀ (i : Nat) (s : Slice) (o : SliceOp), slices[i]? = some s → ops[i]? = some o → part out s = o.apply (part x s)) ∧
  (∀ k, (∀ s ∈ slices, k ∉ s) → out k = x k)

/-- The slices are disjoint and have no repeated element. -/
def DisjointSlices (slices : List Slice) : Prop := (∀ s ∈ slices, s.Nodup) ∧ slices.Pairwise (fun s t => ∀ a ∈ s, a ∉ t)

/-- The operands preserve the number of elements: they are square. -/
def Square (ops : List SliceOp) : Prop := ∀ o : SliceOp, o ∈ ops → ∀ v, (o.apply v).length = v.length

theorem assign_not_mem (out : Nat → Int) (s : Slice) (v : List Int) (k : Nat) (h : k ∉ s) :
    assign out s v k = out k := by
  unfold assign
  have : s.findIdx? (· == k) = none := by
    rw [List.findIdx?_eq_none_iff]
    intro x hx
    simp only [beq_eq_false_iff_ne, ne_eq]
    rintro rfl
    exact h hx
  rw [this]

theorem part_assign_self (out : Nat → Int) (s : Slice) (v : List Int) (hn : s.Nodup) (hl : v.length = s.length) :
    part (assign out s v) s = v := by
  apply List.ext_getElem
  · simp [part, hl]
  · intro i h1 h2
    simp only [part, List.getElem_map]
    have hi : i < s.length := by simpa [part] using h1
    unfold assign
    have : s.findIdx? (· == s[i]) = some i := by
      rw [List.findIdx?_eq_some_iff_getElem]
      refine ⟨hi, by simp, ?_⟩
      intro j hj
      simp only [beq_iff_eq]
      intro e
      have := (List.Nodup.getElem_inj_iff hn).1 e
      omega
    rw [this]
    simp only [List.getElem?_eq_getElem h2]

theorem part_assign_disjoint (out : Nat → Int) (s s' : Slice) (v : List Int) (hd : List.Disjoint s' s) :
    part (assign out s v) s' = part out s' := by
  unfold part
  apply List.map_congr_left
  intro k hk
  exact assign_not_mem out s v k (fun h => hd hk h)

theorem foldl_slices (inplace : Bool) (x : Nat → Int) (slices : List Slice) (ops : List SliceOp)
    (hd : DisjointSlices slices) (hsq : Square ops) (hlen : slices.length ≤ ops.length) (out : Nat → Int)
    (hout : ∀ s ∈ slices, part out s = part x s) :
    let res := (slices.zip ops).foldl
      (fun (out : Nat → Int) (b : Slice × SliceOp) => assign out b.1 (b.2.apply (part (if inplace then out else x) b.1))) out
    (∀ (i : Nat) (s : Slice) (o : SliceOp), slices[i]? = some s → ops[i]? = some o → part res s = o.apply (part x s)) ∧
    (∀ k, (∀ s ∈ slices, k ∉ s) → res k = out k) := by
  induction slices generalizing ops out with
  | nil => exact ⟨fun i s o h => by simp at h, fun _ _ => rfl⟩
  | cons s slices ih =>
    cases ops with
    | nil => simp at hlen
    | cons o ops =>
      have hds : DisjointSlices slices := ⟨fun s hs => hd.1 s (by simp [hs]), (List.pairwise_cons.1 hd.2).2⟩
      have hdis := (List.pairwise_cons.1 hd.2).1
      have hin : part (if inplace then out else x) s = part x s := by
        split
        · exact hout s (by simp)
        · rfl
      have hv : (o.apply (part x s)).length = s.length := by
        rw [hsq o (by simp)]; simp [part]
      let out1 := assign out s (o.apply (part x s))
      have hout1 : ∀ s' ∈ slices, part out1 s' = part x s' := by
        intro s' hs'
        rw [part_assign_disjoint out s s' _ (fun a h1 h2 => hdis s' hs' a h2 h1)]
        exact hout s' (by simp [hs'])
      obtain ⟨h1, h2⟩ := ih ops hds (fun o ho => hsq o (by simp [ho])) (by simpa using hlen) out1 hout1
      simp only [List.zip_cons_cons, List.foldl_cons, hin]
      refine ⟨?_, ?_⟩
      · intro i s' o' hs' ho'
        cases i with
        | zero =>
          simp at hs' ho'
          subst hs' ho'
          have : part ((slices.zip ops).foldl
              (fun (out : Nat → Int) (b : Slice × SliceOp) => assign out b.1 (b.2.apply (part (if inplace then out else x) b.1))) out1) s =
              part out1 s := by
            unfold part
            apply List.map_congr_left
            intro k hk
            exact h2 k (fun s' hs' h => hdis s' hs' k hk h)
          rw [this]
          exact part_assign_self out s _ (hd.1 s (by simp)) hv
        | succ i => exact h1 i s' o' (by simpa using hs') (by simpa using ho')
      · intro k hk
        rw [h2 k (fun s' hs' => hk s' (by simp [hs']))]
        exact assign_not_mem out s _ k (hk s (by simp))

theorem loop_no_rules (ops : List SliceOp) (i fuel : Nat) (h : ops.length ≤ fuel + i) :
    sliceTable.loop fuel ops i = some ops := by
  induction fuel generalizing i with
  | zero =>
    unfold CTable.loop
    rw [List.getElem?_eq_none (by omega)]
  | succ fuel ih =>
    unfold CTable.loop
    split
    · rfl
    · exact ih (i + 1) (by omega)

/-- C54, partial: when no operand but the first one is a homothety, the block slice operator applies its operands on
their slices and copies the other elements, both in place and out of place.
Missing from the full property: a homothety (for example the identity) that is not the first operand
(`C54_homothety_fails`). -/
theorem C54_block_slice_partial (inplace : Bool) (ops : List SliceOp) (slices : List Slice)
    (hlen : ops.length = slices.length) (hd : DisjointSlices slices) (hsq : Square ops)
    (hh : ∀ i o, ops[i]? = some o → o.isHomothety = true → i = 0) (x : Nat → Int) :
    ∃ blocks, newBlockSlice ops slices = some blocks ∧
      IsBlockSlice slices ops x (blockSliceDirect inplace blocks x) := by
  have hops : sliceTable.applyRules false (ops.length + 1) ops = some ops := by
    unfold CTable.applyRules
    simp only [Bool.false_eq_true, if_false]
    split
    · rfl
    · rw [loop_no_rules ops 0 _ (by omega)]
      simp only [Option.map_some, Option.some.injEq]
      unfold CTable.moveHomothety
      split
      · rfl
      · rename_i k hk
        obtain ⟨hlt, hp, _⟩ := List.findIdx?_eq_some_iff_getElem.1 hk
        have hk0 := hh k ops[k] (List.getElem?_eq_getElem hlt) hp
        subst hk0
        rw [List.getElem?_eq_getElem hlt]
        cases ops with
        | nil => simp at hlt
        | cons o ops => simp [sliceTable]
  refine ⟨slices.zip ops, by unfold newBlockSlice; rw [hops]; rfl, ?_⟩
  obtain ⟨h1, h2⟩ := foldl_slices inplace x slices ops hd hsq (by omega) x (fun _ _ => rfl)
  exact ⟨h1, h2⟩

/-- A non-trivial instance: multiplying by 2 the even elements, adding 1 to two of the odd ones. -/
example : ∃ (ops : List SliceOp) (slices : List Slice), ops.length = slices.length ∧ DisjointSlices slices ∧
    Square ops ∧ (∀ i o, ops[i]? = some o → o.isHomothety = true → i = 0) ∧ slices.length = 2 :=
  ⟨[⟨List.map (2 * ·), true⟩, ⟨List.map (1 + ·), false⟩], [[0, 2, 4], [1, 3]], rfl,
    ⟨by decide, by decide⟩, by intro o ho v; simp at ho; rcases ho with rfl | rfl <;> simp,
    by
      intro i o ho hh
      match i, ho with
      | 0, _ => rfl
      | 1, ho => simp at ho; subst ho; simp at hh
      | i + 2, ho => simp at ho, rfl⟩

/-- C54 is violated by the code: the operands are reordered by the simplification and not the slices.  The operator
that adds one on the elements 0 and 1 and multiplies by three the elements 2 and 3 multiplies the elements 0 and 1. -/
theorem C54_homothety_fails :
    ∃ (ops : List SliceOp) (slices : List Slice) (x : Nat → Int) (blocks : List (Slice × SliceOp)),
      ops.length = slices.length ∧ DisjointSlices slices ∧ Square ops ∧ newBlockSlice ops slices = some blocks ∧
      ¬ IsBlockSlice slices ops x (blockSliceDirect false blocks x) := by
  refine ⟨[⟨List.map (1 + ·), false⟩, ⟨List.map (3 * ·), true⟩], [[0, 1], [2, 3]], fun _ => 1,
    [([0, 1], ⟨List.map (3 * ·), true⟩), ([2, 3], ⟨List.map (1 + ·), false⟩)], rfl, ⟨by decide, by decide⟩,
    by intro o ho v; simp at ho; rcases ho with rfl | rfl <;> simp, rfl, ?_⟩
  rintro ⟨h, _⟩
  have := h 0 [0, 1] ⟨List.map (1 + ·), false⟩ rfl rfl
  revert this
  decide

/-- C55, partial: the composition of a block slice operator by a scalar on its right is right on the slices: the
operands, which are linear, are multiplied by the scalar.
Missing from the full property: the elements out of the slices (`C55_scalar_fails`). -/
theorem C55_scalar_slices_partial (inplace : Bool) (ops : List SliceOp) (slices : List Slice)
    (hlen : ops.length = slices.length) (hd : DisjointSlices slices) (hsq : Square ops) (c : Int) (x : Nat → Int)
    (hlin : ∀ o ∈ ops, ∀ v : List Int, o.apply (v.map (c * ·)) = (o.apply v).map (c * ·)) (s : Slice) (hs : s ∈ slices) :
    part (blockSliceDirect inplace (sliceRuleHomothety (slices.zip ops) c) x) s =
      part (blockSliceDirect inplace (slices.zip ops) (fun k => c * x k)) s := by
  obtain ⟨i, hi, e⟩ := List.getElem_of_mem hs
  have hs' : slices[i]? = some s := by rw [List.getElem?_eq_getElem hi, e]
  have hio : i < ops.length := by omega
  have ho : ops[i]? = some ops[i] := List.getElem?_eq_getElem hio
  let ops' : List SliceOp := ops.map (fun o => { o with apply := fun v => (o.apply v).map (c * ·) })
  have hz : sliceRuleHomothety (slices.zip ops) c = slices.zip ops' := by
    unfold sliceRuleHomothety
    rw [List.zip_map_right]
    rfl
  have h1 := (foldl_slices inplace x slices ops' hd (by
      intro o ho v
      simp only [ops', List.mem_map] at ho
      obtain ⟨o, ho, rfl⟩ := ho
      simp [hsq o ho]) (by simp [ops']; omega) x (fun _ _ => rfl)).1 i s
      { ops[i] with apply := fun v => (ops[i].apply v).map (c * ·) } hs' (by
      simp only [ops', List.getElem?_map, ho, Option.map_some])
  have h2 := (foldl_slices inplace (fun k => c * x k) slices ops hd hsq (by omega) (fun k => c * x k)
    (fun _ _ => rfl)).1 i s _ hs' ho
  rw [hz]
  refine h1.trans (Eq.trans ?_ h2.symm)
  have hp : part (fun k => c * x k) s = (part x s).map (c * ·) := by simp [part]
  rw [hp, hlin _ (List.getElem_mem hio)]

example : ∃ (ops : List SliceOp) (slices : List Slice), ops.length = slices.length ∧ DisjointSlices slices ∧
    Square ops ∧ (∀ o ∈ ops, ∀ v : List Int, o.apply (v.map (5 * ·)) = (o.apply v).map (5 * ·)) ∧ ops ≠ [] :=
  ⟨[⟨List.map (2 * ·), true⟩, ⟨List.reverse, false⟩], [[0, 2, 4], [1, 3]], rfl, ⟨by decide, by decide⟩,
    by intro o ho v; simp at ho; rcases ho with rfl | rfl <;> simp,
    by
      intro o ho v
      simp at ho
      rcases ho with rfl | rfl
      · simp only [List.map_map]
        exact List.map_congr_left (fun z _ => by simp only [Function.comp]; ring)
      · simp, by simp⟩

/-- C55 is violated by the code: the composition of a block slice operator and of a scalar is simplified into an
operator that does not multiply the elements out of the slices. -/
theorem C55_scalar_fails :
    ∃ (blocks : List (Slice × SliceOp)) (c : Int) (x : Nat → Int) (k : Nat),
      (∀ b ∈ blocks, ∀ v : List Int, b.2.apply (v.map (c * ·)) = (b.2.apply v).map (c * ·)) ∧
      blockSliceDirect false (sliceRuleHomothety blocks c) x k ≠ blockSliceDirect false blocks (fun k => c * x k) k := by
  refine ⟨[([0, 2, 4], ⟨List.map (3 * ·), true⟩)], 2, fun _ => 1, 1, ?_, by decide⟩
  intro b hb v
  simp at hb
  subst hb
  simp only [List.map_map]
  exact List.map_congr_left (fun z _ => by simp only [Function.comp]; ring)

end Verif.Simplify
