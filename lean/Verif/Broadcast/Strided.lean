import Verif.Broadcast.Special

/-
Model of the views that are broadcast by changing the strides: src/pyoperators/core.py:4137-4152 (`BroadcastingBase._as_strided`).
-/

namespace Verif.Broadcast

open Verif.Shape Verif.Block

variable {α R : Type}

/-- A NumPy array as it is stored: a memory, the position of the first element, the shape and the strides.  The positions and the
strides are counted in elements (and not in bytes).  The memory extends beyond the array. -/
structure Strided (α : Type) where
  mem : Int → α
  base : Int
  shape : Shape
  strides : List Int

/-- The sum of the products of the indices by the strides. -/
def offset : MIndex → List Int → Int
  | i :: k, v :: vs => i * v + offset k vs
  | _, _ => 0

/-- The values of the array. -/
def Strided.toData (a : Strided α) : Data α := ⟨a.shape, fun k => a.mem (a.base + offset k a.strides)⟩

/-- The loop over the dimensions of the data, from the last one to the first one: src/pyoperators/core.py:4145-4151.  The strides are in
the order of the loop. -/
def strideLoop : List Nat → Int → List Int
  | [], _ => []
  | s :: dims, v => if s = 1 then 0 :: strideLoop dims v else v :: strideLoop dims (v * s)

/-- `_as_strided(shape)`: src/pyoperators/core.py:4137-4152.  The shape has at least as many dimensions as the data. -/
def Strided.asStrided (a : Strided α) (b : Kind) : Option Shape → Strided α
  | none => a
  | some shape =>
    let own := (strideLoop a.shape.reverse 1).reverse
    let zeros := List.replicate (shape.length - a.shape.length) 0
    ⟨a.mem, a.base, shape, if b = .rightward then own ++ zeros else zeros ++ own⟩

/-- The product of the dimensions. -/
def size : Shape → Nat
  | [] => 1
  | d :: s => d * size s

/-! ### Specification -/

/-- The number of the element in C order. -/
def ravel : Shape → MIndex → Nat
  | _ :: s, i :: k => i * size s + ravel s k
  | _, _ => 0

/-- The elements of the array follow each other in C order: the flag C_CONTIGUOUS of NumPy. -/
def Strided.Contiguous (a : Strided α) : Prop := ∀ k, inShape a.shape k = true → offset k a.strides = ravel a.shape k

/-! ### Proofs -/

theorem strideLoop_append (d : Nat) : ∀ (s : List Nat) (v : Int),
    strideLoop (s ++ [d]) v = strideLoop s v ++ [if d = 1 then 0 else v * (size s : Int)]
  | [], v => by simp [strideLoop, size]; split <;> rfl
  | e :: s, v => by
    simp only [List.cons_append, strideLoop, size]
    split
    · next h => subst h; rw [strideLoop_append d s v]; simp
    · rw [strideLoop_append d s (v * e)]
      simp only [List.cons_append, Nat.cast_mul, mul_assoc]

theorem size_append : ∀ s t : Shape, size (s ++ t) = size s * size t
  | [], t => by simp [size]
  | d :: s, t => by simp [size, size_append s t, Nat.mul_assoc]

theorem size_reverse : ∀ s : Shape, size s.reverse = size s
  | [] => rfl
  | d :: s => by rw [List.reverse_cons, size_append, size_reverse s]; simp [size, Nat.mul_comm]

/-- The strides of the data, from the first dimension on. -/
def ownStrides : Shape → List Int
  | [] => []
  | d :: s => (if d = 1 then 0 else (size s : Int)) :: ownStrides s

theorem strideLoop_own : ∀ s : Shape, (strideLoop s.reverse 1).reverse = ownStrides s
  | [] => rfl
  | d :: s => by
    rw [List.reverse_cons, strideLoop_append, List.reverse_append, strideLoop_own s, size_reverse]
    simp [ownStrides]

theorem ownStrides_length : ∀ s : Shape, (ownStrides s).length = s.length
  | [] => rfl
  | _ :: s => by simp [ownStrides, ownStrides_length s]

theorem offset_zeros : ∀ (k : MIndex) (n : Nat), offset k (List.replicate n 0) = 0
  | [], n => by cases n <;> rfl
  | _ :: _, 0 => rfl
  | i :: k, n + 1 => by simp [List.replicate_succ, offset, offset_zeros k n]

theorem offset_append : ∀ (k l : MIndex) (v w : List Int), k.length = v.length → offset (k ++ l) (v ++ w) = offset k v + offset l w
  | [], l, [], w, _ => by simp [offset]
  | i :: k, l, a :: v, w, h => by
    simp only [List.cons_append, offset, offset_append k l v w (by simpa using h), add_assoc]

theorem offset_own : ∀ (s : Shape) (k : MIndex) (m : Nat), s.length ≤ k.length →
    offset k (ownStrides s ++ List.replicate m 0) = ravel s (bindex s k)
  | [], k, m, _ => by simp [ownStrides, offset_zeros, ravel]
  | d :: s, i :: k, m, h => by
    simp only [ownStrides, List.cons_append, offset, bindex, ravel, offset_own s k m (by simpa using h)]
    split <;> push_cast <;> simp

theorem bindex_zipWith' : ∀ (s k : List Nat), bindex s k = List.zipWith (fun d i => if d = 1 then 0 else i) s k
  | [], k => by simp [bindex]
  | _ :: _, [] => by simp [bindex]
  | d :: s, i :: k => by simp [bindex, bindex_zipWith' s k]

theorem bindex_take : ∀ (s k : List Nat), bindex s k = bindex s (k.take s.length)
  | [], _ => by simp [bindex]
  | _ :: _, [] => by simp [bindex]
  | d :: s, i :: k => by simp [bindex, bindex_take s k]

theorem bindex_reverse {s k : List Nat} (h : s.length ≤ k.length) :
    (bindex s.reverse k.reverse).reverse = bindex s (k.drop (k.length - s.length)) := by
  rw [bindex_take, List.length_reverse, List.take_reverse, bindex_zipWith', bindex_zipWith',
    ← List.reverse_zipWith (by rw [List.length_drop]; omega), List.reverse_reverse]

theorem aligned_length (b : Kind) (l : List Nat) : (aligned b l).length = l.length := by
  simp only [aligned]; split <;> simp

/-- The view of contiguous data is the data broadcast to the shape. -/
theorem asStrided_get {a : Strided α} (ha : a.Contiguous) {b : Kind} {t : Shape} (hf : Fits (aligned b a.shape) (aligned b t)) {k : MIndex}
    (hk : inShape t k = true) : (a.asStrided b (some t)).toData.get k = coefficient a.toData b k := by
  have hlen := hf.eq_of_length
  rw [aligned_length, aligned_length] at hlen
  have hkl := Verif.Broadcast.inShape_length hk
  have hin : inShape (aligned b a.shape) (bindex (aligned b a.shape) (aligned b k)) = true :=
    bindex_inShape hf (by rw [inShape_aligned]; exact hk)
  have hin' : inShape a.shape (aligned b (bindex (aligned b a.shape) (aligned b k))) = true := by
    rw [← inShape_aligned b, aligned_aligned]; exact hin
  simp only [coefficient, Strided.toData, Strided.asStrided, strideLoop_own]
  rw [ha _ hin']
  congr 2
  by_cases hb : b = .rightward
  · subst hb
    simp only [aligned, if_true]
    exact offset_own _ _ _ (by omega)
  · simp only [if_neg hb, aligned]
    rw [bindex_reverse (by omega)]
    have e : k = k.take (k.length - a.shape.length) ++ k.drop (k.length - a.shape.length) := (List.take_append_drop _ _).symm
    rw [e, offset_append _ _ _ _ (by simp; omega), offset_zeros, zero_add, ← e]
    have := offset_own a.shape (k.drop (k.length - a.shape.length)) 0 (by simp; omega)
    simpa using this

/-- The element number p in C order. -/
def unravel : Shape → Nat → MIndex
  | [], _ => []
  | _ :: s, p => p / size s :: unravel s (p % size s)

/-- A new array in C order. -/
def Strided.ofData (d : Data α) : Strided α := ⟨fun p => d.get (unravel d.shape p.toNat), 0, d.shape, (strideLoop d.shape.reverse 1).reverse⟩

theorem ravel_lt : ∀ {s : Shape} {k : MIndex}, inShape s k = true → ravel s k < size s
  | [], [], _ => by simp [ravel, size]
  | d :: s, i :: k, h => by
    simp only [inShape, Bool.and_eq_true, decide_eq_true_eq] at h
    have := ravel_lt h.2
    simp only [ravel, size]
    calc i * size s + ravel s k < i * size s + size s := by omega
      _ = (i + 1) * size s := by rw [Nat.add_mul, Nat.one_mul]
      _ ≤ d * size s := Nat.mul_le_mul_right _ h.1

theorem unravel_ravel : ∀ {s : Shape} {k : MIndex}, inShape s k = true → unravel s (ravel s k) = k
  | [], [], _ => rfl
  | d :: s, i :: k, h => by
    simp only [inShape, Bool.and_eq_true, decide_eq_true_eq] at h
    have hlt := ravel_lt h.2
    have hpos : 0 < size s := by omega
    simp only [unravel, ravel]
    rw [Nat.mul_comm i, Nat.mul_add_div hpos, Nat.div_eq_of_lt hlt, Nat.mul_add_mod, Nat.mod_eq_of_lt hlt, unravel_ravel h.2,
      Nat.add_zero]

theorem ofData_contiguous (d : Data α) : (Strided.ofData d).Contiguous := by
  intro k (hk : inShape d.shape k = true)
  have := offset_own d.shape k 0 (Verif.Broadcast.inShape_length hk).ge
  simp only [Strided.ofData, strideLoop_own]
  rw [bindex_self hk] at this
  simpa using this

theorem ofData_get (d : Data α) {k : MIndex} (hk : inShape d.shape k = true) : (Strided.ofData d).toData.get k = d.get k := by
  have := ofData_contiguous d k hk
  simp only [Strided.toData]
  rw [this]
  simp only [Strided.ofData, zero_add, Int.toNat_natCast]
  rw [unravel_ravel hk]

end Verif.Broadcast
