import Verif.Broadcast.Strided
import Mathlib.Data.List.GetD

/-
Model of the views with new dimensions: src/pyoperators/utils/misc.py:806-847 (`reshape_broadcast`).
-/

namespace Verif.Broadcast

open Verif.Shape Verif.Block

variable {α : Type}

/-- The test of the shapes: src/pyoperators/utils/misc.py:836-838.  `shape[-x.ndim:]` is the whole shape if x has no dimension; `zip` stops
with the shorter one. -/
def refused (s t : Shape) : Bool :=
  decide (t.length < s.length) ||
    (s.zip (if s.length = 0 then t else t.drop (t.length - s.length))).any fun p => p.1 != 1 && p.1 != p.2

/-- `reshape_broadcast(x, shape)`: src/pyoperators/utils/misc.py:806-847.  `none` is the exception ValueError. -/
def reshapeBroadcast (x : Strided α) (shape : Shape) : Option (Strided α) :=
  if refused x.shape shape then none
  else
    let strides := List.replicate (shape.length - x.shape.length) 0 ++
      (x.shape.zip x.strides).map fun p => if p.1 = 1 then 0 else p.2
    some ⟨x.mem, x.base, shape, strides⟩

/-! ### Specification -/

/-- NumPy broadcasts arrays of shape s to the shape t: the dimensions are aligned on the right, those of s are 1 or that of t. -/
def Broadcasts (s t : Shape) : Prop :=
  s.length ≤ t.length ∧ ∀ i d, s[i]? = some d → d = 1 ∨ t[t.length - s.length + i]? = some d

/-- The index in the original array of the element k of the array that is broadcast. -/
def source (s : Shape) (k : MIndex) : MIndex :=
  (List.range s.length).map fun i => if s[i]? = some 1 then 0 else k.getD (k.length - s.length + i) 0

/-! ### Proofs -/

theorem source_eq {s : Shape} {k : MIndex} (h : s.length ≤ k.length) : source s k = bindex s (k.drop (k.length - s.length)) := by
  rw [bindex_zipWith']
  apply List.ext_getElem
  · simp [source]; omega
  · intro i h1 h2
    have hi : i < s.length := by simpa [source] using h1
    simp only [source, List.getElem_map, List.getElem_range, List.getElem_zipWith, List.getElem_drop]
    rw [List.getD_eq_getElem _ _ (by omega), List.getElem?_eq_getElem hi]
    simp

theorem refused_eq_false {s t : Shape} : refused s t = false ↔ Broadcasts s t := by
  by_cases hl : t.length < s.length
  · simp only [refused, hl, decide_true, Bool.true_or, Bool.true_eq_false, Broadcasts, false_iff, not_and]
    intro h; omega
  · simp only [refused, hl, decide_false, Bool.false_or, Broadcasts]
    have hd : (if s.length = 0 then t else t.drop (t.length - s.length)) = if s.length = 0 then t else t.drop (t.length - s.length) := rfl
    rw [List.any_eq_false]
    constructor
    · intro h
      refine ⟨by omega, fun i d hi => ?_⟩
      obtain ⟨hi', rfl⟩ := List.getElem?_eq_some_iff.1 hi
      rw [if_neg (by omega)] at h
      have hz := h (s[i], (t.drop (t.length - s.length))[i]'(by simp; omega)) (by
        rw [List.mem_iff_getElem]
        exact ⟨i, by simp; omega, by simp⟩)
      simp only [List.getElem_drop, Bool.and_eq_true, bne_iff_ne, ne_eq, not_and, not_not] at hz
      rw [List.getElem?_eq_getElem (by omega)]
      by_cases h1 : s[i] = 1
      · exact Or.inl h1
      · exact Or.inr (by rw [hz h1])
    · rintro ⟨-, h⟩ p hp
      by_cases h0 : s.length = 0
      · rw [List.length_eq_zero_iff] at h0; subst h0; simp at hp
      · rw [if_neg h0, List.mem_iff_getElem] at hp
        obtain ⟨i, hi, rfl⟩ := hp
        have hi' : i < s.length := by simp at hi; omega
        simp only [List.getElem_zip, List.getElem_drop, Bool.and_eq_true, bne_iff_ne, ne_eq, not_and, not_not]
        intro h1
        rcases h i _ (List.getElem?_eq_getElem hi') with h2 | h2
        · exact absurd h2 h1
        · rw [List.getElem?_eq_getElem (by omega)] at h2
          exact (Option.some.inj h2).symm

theorem offset_masked : ∀ (s : Shape) (v : List Int) (k : MIndex), v.length = s.length → k.length = s.length →
    offset k ((s.zip v).map fun p => if p.1 = 1 then 0 else p.2) = offset (bindex s k) v
  | [], [], [], _, _ => rfl
  | d :: s, w :: v, i :: k, hv, hk => by
    simp only [List.zip_cons_cons, List.map_cons, offset, bindex, offset_masked s v k (by simpa using hv) (by simpa using hk)]
    split <;> simp

theorem inShape_iff : ∀ {s : Shape} {k : MIndex},
    inShape s k = true ↔ k.length = s.length ∧ ∀ i d, s[i]? = some d → k.getD i 0 < d
  | [], [] => by simp [inShape]
  | [], _ :: _ => by simp [inShape]
  | _ :: _, [] => by simp [inShape]
  | d :: s, i :: k => by
    simp only [inShape, Bool.and_eq_true, decide_eq_true_eq, inShape_iff (s := s) (k := k), List.length_cons, Nat.add_right_cancel_iff]
    constructor
    · rintro ⟨h1, h2, h3⟩
      refine ⟨h2, fun j e hj => ?_⟩
      cases j with
      | zero => simp at hj; subst hj; simpa using h1
      | succ j => simpa using h3 j e (by simpa using hj)
    · rintro ⟨h1, h2⟩
      exact ⟨by simpa using h2 0 d (by simp), h1, fun j e hj => by simpa using h2 (j + 1) e (by simpa using hj)⟩

/-- The arrays that can be reshaped are those that NumPy broadcasts to the shape. -/
theorem C83_accepted (x : Strided α) (t : Shape) : (∃ y, reshapeBroadcast x t = some y) ↔ Broadcasts x.shape t := by
  rw [← refused_eq_false]
  simp only [reshapeBroadcast]
  cases refused x.shape t <;> simp

/-- The values of the view are those of the array broadcast to the shape, whatever the layout of the array in the memory. -/
theorem C83_values {x y : Strided α} {t : Shape} (hx : x.strides.length = x.shape.length) (h : reshapeBroadcast x t = some y) :
    y.toData.shape = t ∧ ∀ k, inShape t k = true → y.toData.get k = x.toData.get (source x.shape k) ∧
      inShape x.shape (source x.shape k) = true := by
  have hb : Broadcasts x.shape t := (C83_accepted x t).1 ⟨y, h⟩
  have hr : refused x.shape t = false := refused_eq_false.2 hb
  simp only [reshapeBroadcast, hr, Bool.false_eq_true, if_false, Option.some.injEq] at h
  subst h
  refine ⟨rfl, fun k hk => ?_⟩
  have hkl := Verif.Broadcast.inShape_length hk
  have hlen := hb.1
  rw [source_eq (by omega)]
  constructor
  · simp only [Strided.toData]
    congr 2
    have e : k = k.take (k.length - x.shape.length) ++ k.drop (k.length - x.shape.length) := (List.take_append_drop _ _).symm
    conv_lhs => rw [e]
    rw [offset_append _ _ _ _ (by simp; omega), offset_zeros, zero_add, offset_masked _ _ _ hx (by simp; omega)]
  · rw [← source_eq (by omega)]
    rw [inShape_iff] at hk ⊢
    refine ⟨by simp [source], fun i d hi => ?_⟩
    obtain ⟨hi', rfl⟩ := List.getElem?_eq_some_iff.1 hi
    have e : (source x.shape k).getD i 0 = if x.shape[i] = 1 then 0 else k.getD (k.length - x.shape.length + i) 0 := by
      rw [List.getD_eq_getElem _ _ (by simpa [source] using hi')]
      simp [source, List.getElem?_eq_getElem hi']
    rw [e]
    split
    · next h1 => rw [h1]; exact Nat.one_pos
    · next h1 =>
      rcases hb.2 i _ hi with h2 | h2
      · exact absurd h2 h1
      · rw [hkl]; exact hk.2 _ _ h2

/-- An array that is broadcast twice is the array that is broadcast at once. -/
theorem C83_twice {x y z : Strided α} {t u : Shape} (hx : x.strides.length = x.shape.length) (h : reshapeBroadcast x t = some y)
    (h' : reshapeBroadcast y u = some z) : ∃ w, reshapeBroadcast x u = some w ∧ w.toData.shape = z.toData.shape ∧
      ∀ k, inShape u k = true → w.toData.get k = z.toData.get k := by
  have hb : Broadcasts x.shape t := (C83_accepted x t).1 ⟨y, h⟩
  have hys : y.shape = t := (C83_values hx h).1
  have hb' : Broadcasts t u := by have := (C83_accepted y u).1 ⟨z, h'⟩; rwa [hys] at this
  have hyl : y.strides.length = y.shape.length := by
    have hr : refused x.shape t = false := refused_eq_false.2 hb
    simp only [reshapeBroadcast, hr, Bool.false_eq_true, if_false, Option.some.injEq] at h
    subst h
    have := hb.1
    simp [hx]; omega
  have l1 := hb.1
  have l2 := hb'.1
  have hbu : Broadcasts x.shape u := by
    refine ⟨by omega, fun i d hi => ?_⟩
    rcases hb.2 i d hi with e | e
    · exact Or.inl e
    · rcases hb'.2 _ d e with e' | e'
      · exact Or.inl e'
      · refine Or.inr ?_
        rw [← e']; congr 1; omega
  obtain ⟨w, hw⟩ := (C83_accepted x u).2 hbu
  obtain ⟨w1, w2⟩ := C83_values hx hw
  obtain ⟨z1, z2⟩ := C83_values hyl h'
  obtain ⟨y1, y2⟩ := C83_values hx h
  refine ⟨w, hw, w1.trans z1.symm, fun k hk => ?_⟩
  have hkl := Verif.Broadcast.inShape_length hk
  obtain ⟨e1, h1⟩ := z2 k hk
  rw [hys] at e1 h1
  rw [(w2 k hk).1, e1, (y2 _ h1).1]
  congr 1
  apply List.ext_getElem
  · simp [source]
  · intro i hi _
    have hi' : i < x.shape.length := by simpa [source] using hi
    simp only [source, List.getElem_map, List.getElem_range, List.getElem?_eq_getElem hi', Option.some.injEq, List.length_map,
      List.length_range]
    split
    · rfl
    · next h1 =>
      rw [List.getD_eq_getElem (l := List.map _ _) _ (by simp; omega)]
      simp only [List.getElem_map, List.getElem_range]
      rcases hb.2 i _ (List.getElem?_eq_getElem hi') with e | e
      · exact absurd e h1
      · rw [if_neg (by rw [e]; simpa using h1)]
        congr 1; omega

/-- The example of the documentation, for the transpose of a row. -/
example : ∃ y, reshapeBroadcast (⟨fun p => p, 0, [3, 1], [1, 3]⟩ : Strided Int) [2, 3, 2] = some y ∧ y.strides = [0, 1, 0] ∧
    y.toData.flat = [0, 0, 1, 1, 2, 2, 0, 0, 1, 1, 2, 2] := ⟨_, rfl, rfl, by decide⟩

/-- A view that is reversed and takes an element out of two. -/
example : ∃ y, reshapeBroadcast (⟨fun p => p, 4, [3], [-2]⟩ : Strided Int) [2, 3] = some y ∧ y.toData.flat = [4, 2, 0, 4, 2, 0] :=
  ⟨_, rfl, by decide⟩

/-- Shapes that are refused. -/
example : (reshapeBroadcast (⟨fun p => p, 0, [3], [1]⟩ : Strided Int) [3, 2]).isNone ∧
    (reshapeBroadcast (⟨fun p => p, 0, [1, 3], [3, 1]⟩ : Strided Int) [3]).isNone := by decide

/-- A row that is broadcast twice. -/
example : ∃ y z, reshapeBroadcast (⟨fun p => p, 0, [1, 3], [3, 1]⟩ : Strided Int) [2, 3] = some y ∧
    reshapeBroadcast y [2, 2, 3] = some z ∧ z.toData.flat = [0, 1, 2, 0, 1, 2, 0, 1, 2, 0, 1, 2] := ⟨_, _, rfl, rfl, by decide⟩

end Verif.Broadcast
