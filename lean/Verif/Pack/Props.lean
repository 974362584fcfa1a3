import Verif.Pack.Model
import Mathlib.Algebra.BigOperators.Group.List.Basic
import Mathlib.Algebra.BigOperators.Ring.List
import Mathlib.Data.List.Nodup

/-
Property C29: packing and unpacking.
-/

namespace Verif.Pack

open Verif.Shape Verif.Block Verif.Broadcast

variable {R : Type}

/-! ### Enumeration of the multi-indices -/

theorem enum_append : ∀ s t : Shape, enum (s ++ t) = (enum s).flatMap fun k => (enum t).map (k ++ ·)
  | [], t => by simp [enum]
  | d :: s, t => by
    simp [enum, enum_append s t, List.flatMap_assoc, List.map_flatMap, List.flatMap_map, List.map_map, Function.comp_def]

theorem enum_nodup : ∀ s : Shape, (enum s).Nodup
  | [] => by simp [enum]
  | d :: s => by
    simp only [enum]
    rw [List.nodup_flatMap]
    refine ⟨fun i _ => (enum_nodup s).map fun a b h => (List.cons.inj h).2, ?_⟩
    refine (List.nodup_range (n := d)).imp fun {i j} h => ?_
    simp only [Function.onFun, List.Disjoint, List.mem_map]
    rintro k ⟨a, _, rfl⟩ ⟨b, _, hb⟩
    exact h (List.cons.inj hb).1.symm

theorem enum_single (n : Nat) : enum [n] = (List.range n).map fun j => [j] := by
  simp only [enum, List.map_cons, List.map_nil]
  induction List.range n with
  | nil => rfl
  | cons a l ih => simp [ih]

theorem enum_length {s : Shape} {k : MIndex} (h : k ∈ enum s) : k.length = s.length := Broadcast.inShape_length (mem_enum.1 h)

theorem selected_nodup (m : Data Bool) : (selected m).Nodup := (enum_nodup _).filter _

theorem mem_selected {m : Data Bool} {k : MIndex} : k ∈ selected m ↔ inShape m.shape k = true ∧ m.get k = true := by
  simp [selected, mem_enum]

/-- The scalar product of two arrays. -/
def inner [NonUnitalNonAssocSemiring R] (x y : Data R) : R := ((enum x.shape).map fun k => x.get k * y.get k).sum

/-- The arrays have the same shape and the same elements. -/
def Same (x y : Data R) : Prop := x.shape = y.shape ∧ ∀ k, inShape x.shape k = true → x.get k = y.get k

theorem sum_flatMap {ι κ : Type} [AddMonoid R] (l : List ι) (f : ι → List κ) (g : κ → R) :
    ((l.flatMap f).map g).sum = (l.map fun i => ((f i).map g).sum).sum := by
  induction l with
  | nil => rfl
  | cons a l ih => simp [ih]

theorem sum_filter {ι : Type} [AddMonoid R] (l : List ι) (p : ι → Bool) (g : ι → R) :
    (l.map fun i => if p i then g i else 0).sum = ((l.filter p).map g).sum := by
  induction l with
  | nil => rfl
  | cons a l ih => by_cases h : p a <;> simp [h, ih]

theorem map_range_getD {ι κ : Type} (l : List ι) (d : ι) (g : ι → κ) :
    (List.range l.length).map (fun j => g (l.getD j d)) = l.map g := by
  apply List.ext_getElem
  · simp
  · intro i h1 h2
    simp only [List.length_map] at h2
    simp [h2]

theorem idxOf_getD {l : List MIndex} (h : l.Nodup) {j : Nat} (hj : j < l.length) : l.idxOf (l.getD j []) = j := by
  have : l.getD j [] = l[j] := by simp [hj]
  rw [this]
  exact h.idxOf_getElem j hj

theorem idxOf_lt_count {m : Data Bool} {k : MIndex} (h : k ∈ selected m) : (selected m).idxOf k < count m := List.idxOf_lt_length_iff.2 h

theorem getD_idxOf {l : List MIndex} {k : MIndex} (h : k ∈ l) : l.getD (l.idxOf k) [] = k := by
  have hj := List.idxOf_lt_length_iff.2 h
  have : l.getD (l.idxOf k) [] = l[l.idxOf k] := by simp [hj]
  rw [this]
  exact List.getElem_idxOf _

/-- A sum over the elements of the mask in which only the kept elements count is a sum over the packed vector. -/
theorem sum_kept [AddMonoid R] (m : Data Bool) (g : MIndex → Nat → R) :
    ((enum m.shape).map fun k => if m.get k then g k ((selected m).idxOf k) else 0).sum =
      ((List.range (count m)).map fun j => g ((selected m).getD j []) j).sum := by
  rw [sum_filter]
  congr 1
  have h := map_range_getD (selected m) [] fun k => g k ((selected m).idxOf k)
  refine (Eq.trans ?_ h.symm).trans (List.map_congr_left fun j hj => ?_)
  · rfl
  · rw [idxOf_getD (selected_nodup m) (List.mem_range.1 hj)]

/-! ### The dimensions of the mask and the other ones -/

/-- The dimensions p that are broadcast and the dimensions k of the mask, in the order of the array. -/
def glue (b : Kind) (p k : List Nat) : List Nat := if b = .rightward then k ++ p else p ++ k

theorem inShape_glue {b : Kind} {s t : Shape} {k : MIndex} :
    inShape (glue b s t) k = true ↔ ∃ p q, k = glue b p q ∧ inShape s p = true ∧ inShape t q = true := by
  have key : ∀ s t : Shape, inShape (s ++ t) k = true ↔ ∃ p q, k = p ++ q ∧ inShape s p = true ∧ inShape t q = true := by
    intro s t
    rw [← mem_enum, enum_append]
    simp only [List.mem_flatMap, List.mem_map, mem_enum]
    constructor
    · rintro ⟨p, hp, q, hq, rfl⟩
      exact ⟨p, q, rfl, hp, hq⟩
    · rintro ⟨p, q, rfl, hp, hq⟩
      exact ⟨p, hp, q, hq, rfl⟩
  unfold glue
  split
  · rw [key]
    constructor
    · rintro ⟨p, q, h⟩
      exact ⟨q, p, h.1, h.2.2, h.2.1⟩
    · rintro ⟨p, q, h⟩
      exact ⟨q, p, h.1, h.2.2, h.2.1⟩
  · exact key s t

theorem sum_swap {ι κ : Type} [AddCommMonoid R] (l : List ι) (l' : List κ) (g : ι → κ → R) :
    (l.map fun i => (l'.map fun j => g i j).sum).sum = (l'.map fun j => (l.map fun i => g i j).sum).sum := by
  induction l with
  | nil => simp
  | cons a l ih => simp [ih, List.sum_map_add]

theorem sum_glue [AddCommMonoid R] (b : Kind) (s t : Shape) (g : MIndex → R) :
    ((enum (glue b s t)).map g).sum = ((enum s).map fun p => ((enum t).map fun k => g (glue b p k)).sum).sum := by
  unfold glue
  split
  · rw [enum_append, sum_flatMap, sum_swap]
    simp [Function.comp_def]
  · rw [enum_append, sum_flatMap]
    simp [Function.comp_def]

theorem glue_left_inj {b : Kind} {p p' k : List Nat} (h : glue b p k = glue b p' k) : p = p' := by
  unfold glue at h
  split at h
  · exact List.append_cancel_left h
  · exact List.append_cancel_right h

theorem pack_get {m : Data Bool} {b : Kind} {x : Data R} (p : MIndex) (j : Nat) :
    (packDirect m b x).get (glue b p [j]) = x.get (glue b p ((selected m).getD j [])) := by
  unfold packDirect glue
  split <;> simp_all

theorem unpack_get [Zero R] {m : Data Bool} {b : Kind} {y : Data R} (p : MIndex) {k : MIndex} (hk : k.length = m.shape.length) :
    (unpackDirect m b y).get (glue b p k) = if m.get k then y.get (glue b p [(selected m).idxOf k]) else 0 := by
  unfold unpackDirect glue
  by_cases h : b = .rightward
  · simp [h, ← hk]
  · simp [h, ← hk]

theorem pack_shape {m : Data Bool} {b : Kind} {s : Shape}
    (h : (if b = .disabled then decide (s = m.shape) else validateUnpacked m b s) = true) :
    ∃ pre, s = glue b pre m.shape ∧ reshapeUnpacked m b s = glue b pre [count m] := by
  unfold validateUnpacked at h
  unfold reshapeUnpacked glue
  by_cases hb : b = .rightward
  · subst hb
    simp only [reduceCtorEq, if_false, if_true, decide_eq_true_eq] at h
    refine ⟨s.drop m.shape.length, ?_, by simp⟩
    rw [if_pos rfl]
    conv_lhs => rw [← List.take_append_drop m.shape.length s, h]
  · simp only [hb, if_false]
    split at h
    · simp only [decide_eq_true_eq] at h
      subst h
      refine ⟨[], by simp, ?_⟩
      unfold initOf
      split <;> simp
    · simp only [hb, if_false, decide_eq_true_eq, lastOf] at h
      unfold initOf
      split at h
      · rename_i h0
        rw [if_pos h0]
        simp only [decide_eq_true_eq] at h
        exact ⟨[], by simp [h], by simp⟩
      · rename_i h0
        rw [if_neg h0]
        simp only [decide_eq_true_eq] at h
        refine ⟨s.take (s.length - m.shape.length), ?_, rfl⟩
        conv_lhs => rw [← List.take_append_drop (s.length - m.shape.length) s, h]

theorem unpack_shape {m : Data Bool} {b : Kind} {s : Shape}
    (h : (if b = .disabled then decide (s = [count m]) else validatePacked m b s) = true) :
    ∃ pre, s = glue b pre [count m] ∧ reshapePacked m b s = glue b pre m.shape := by
  unfold validatePacked at h
  unfold reshapePacked glue
  by_cases hb : b = .rightward
  · subst hb
    simp only [reduceCtorEq, if_false, if_true, decide_eq_true_eq] at h
    cases s with
    | nil => simp at h
    | cons a s =>
      simp only [List.head?_cons, Option.some.injEq] at h
      exact ⟨s, by simp [h], by simp⟩
  · simp only [hb, if_false]
    split at h
    · simp only [decide_eq_true_eq] at h
      subst h
      exact ⟨[], by simp, by simp⟩
    · simp only [decide_eq_true_eq] at h
      obtain ⟨l, rfl⟩ := List.getLast?_eq_some_iff.1 h
      exact ⟨l, rfl, by simp⟩

section

variable [CommRing R] [DecidableEq R]

theorem diagonal_identity {m : Data Bool} (b : Kind) (h0 : m.flat ≠ []) (h1 : m.flat.all (· == true) = true) :
    diagonalOperator (R := R) id (.bools m) (some b) = ⟨.identity, shapeOf m.shape (defaultKind m.shape (some b))⟩ := by
  have hl : ((Values.bools m : Values R).toNums).flat.length = m.flat.length := by simp [Values.toNums, Data.flat]
  have hc : m.flat.count false = 0 := by
    rw [List.count_eq_zero]
    intro hf
    simpa using List.all_eq_true.1 h1 _ hf
  have hp : 0 < m.flat.length := List.length_pos_iff.2 h0
  have hi : inspect (R := R) id (.bools m) = ⟨0, 0, m.flat.length, false, true⟩ := by
    simp [inspect, h0, inspectBools, hc]
  simp only [diagonalOperator, hl, hi, Values.shape]
  rw [if_neg (by omega)]
  simp

theorem diagonal_call {m : Data Bool} {b : Kind} (h0 : m.flat ≠ []) (h1 : m.flat.all (· == true) = true) {x y : Data R}
    (h : (diagonalOperator (R := R) id (.bools m) (some b)).call x = some y) : y = x := by
  rw [diagonal_identity b h0 h1] at h
  unfold Broadcast.Op.call at h
  split at h
  · exact absurd h (by simp)
  · simpa using h.symm

theorem pack_call_eq (m : Data Bool) (b : Kind) (x : Data R) : (Op.pack m b).call x =
    if (if b = .disabled then decide (x.shape = m.shape) else validateUnpacked m b x.shape) = true then some (packDirect m b x)
    else none := by
  unfold Op.call
  by_cases hb : b = .disabled <;> simp [hb]

theorem pack_call {m : Data Bool} {b : Kind} {x px : Data R} (h : (Op.pack m b).call x = some px) :
    (if b = .disabled then decide (x.shape = m.shape) else validateUnpacked m b x.shape) = true ∧ px = packDirect m b x := by
  rw [pack_call_eq] at h
  by_cases hc : (if b = .disabled then decide (x.shape = m.shape) else validateUnpacked m b x.shape) = true
  · rw [if_pos hc] at h
    exact ⟨hc, (Option.some.inj h).symm⟩
  · rw [if_neg hc] at h
    exact absurd h (by simp)

theorem unpack_call {m : Data Bool} {b : Kind} {y uy : Data R} (h : (Op.unpack m b).call y = some uy) :
    (if b = .disabled then decide (y.shape = [count m]) else validatePacked m b y.shape) = true ∧ uy = unpackDirect m b y := by
  have e : (Op.unpack m b).call y = if (if b = .disabled then decide (y.shape = [count m]) else validatePacked m b y.shape) = true
      then some (unpackDirect m b y) else none := by
    unfold Op.call
    by_cases hb : b = .disabled <;> simp [hb]
  rw [e] at h
  by_cases hc : (if b = .disabled then decide (y.shape = [count m]) else validatePacked m b y.shape) = true
  · rw [if_pos hc] at h
    exact ⟨hc, (Option.some.inj h).symm⟩
  · rw [if_neg hc] at h
    exact absurd h (by simp)

theorem pack_cases {m : Data Bool} {b : Kind} {P : Op R} (h : packOperator m b = some P) :
    (∃ o, P = .diagonal o ∧ unpackOperator m b = some (.diagonal o) ∧ (∀ x y, o.call x = some y → y = x)) ∨
      P = .pack m (defaultKind m.shape (some b)) ∧ unpackOperator (R := R) m b = some (.unpack m (defaultKind m.shape (some b))) := by
  unfold packOperator at h
  unfold unpackOperator
  split at h
  · exact absurd h (by simp)
  · rename_i h0
    rw [if_neg h0]
    split at h
    · rename_i h1
      rw [if_pos h1]
      exact .inl ⟨_, (Option.some.inj h).symm, rfl, fun x y e => diagonal_call h0 h1 e⟩
    · rename_i h1
      rw [if_neg h1]
      exact .inr ⟨(Option.some.inj h).symm, rfl⟩

theorem kind_kind (s : Shape) (b : Kind) : defaultKind s (some (defaultKind s (some b))) = defaultKind s (some b) := by
  unfold defaultKind
  cases s <;> cases b <;> simp

/-- C29: the transposes of the pack and unpack operators of a mask are each other. -/
theorem C29_transposes {m : Data Bool} {b : Kind} {P U : Op R} (hP : packOperator m b = some P) (hU : unpackOperator m b = some U) :
    P.T = some U ∧ U.T = some P := by
  have h0 : m.flat ≠ [] := by
    intro h
    simp [packOperator, h] at hP
  rcases pack_cases hP with ⟨o, rfl, e, -⟩ | ⟨rfl, e⟩
  · rw [hU] at e
    obtain rfl := Option.some.inj e
    exact ⟨rfl, rfl⟩
  · rw [hU] at e
    obtain rfl := Option.some.inj e
    unfold packOperator at hP
    unfold unpackOperator at hU
    rw [if_neg h0] at hP hU
    by_cases h1 : m.flat.all (· == true) = true
    · rw [if_pos h1] at hP
      simp at hP
    · simp only [Op.T, packOperator, unpackOperator, kind_kind]
      rw [if_neg h0, if_neg h1, if_neg h0, if_neg h1]
      exact ⟨rfl, rfl⟩

/-- C29: unpacking is the adjoint of packing. -/
theorem C29_adjoint {m : Data Bool} {b : Kind} {P U : Op R} (hP : packOperator m b = some P) (hU : unpackOperator m b = some U)
    {x y px uy : Data R} (hx : P.call x = some px) (hy : U.call y = some uy) (hs : px.shape = y.shape) :
    uy.shape = x.shape ∧ inner px y = inner x uy := by
  rcases pack_cases hP with ⟨o, rfl, e, ho⟩ | ⟨rfl, e⟩
  · rw [hU] at e
    obtain rfl := Option.some.inj e
    obtain rfl := ho _ _ hx
    obtain rfl := ho _ _ hy
    exact ⟨hs.symm, rfl⟩
  · rw [hU] at e
    obtain rfl := Option.some.inj e
    generalize defaultKind m.shape (some b) = b at *
    obtain ⟨h1, rfl⟩ := pack_call hx
    obtain ⟨h2, rfl⟩ := unpack_call hy
    obtain ⟨pre, e1, e2⟩ := pack_shape h1
    obtain ⟨pre', e3, e4⟩ := unpack_shape h2
    have e5 : (packDirect m b x).shape = glue b pre [count m] := e2
    have e6 : (unpackDirect m b y).shape = glue b pre' m.shape := e4
    rw [e5, e3] at hs
    obtain rfl := glue_left_inj hs
    refine ⟨e6.trans e1.symm, ?_⟩
    unfold inner
    rw [e5, e1, sum_glue, sum_glue]
    congr 1
    refine List.map_congr_left fun p _ => ?_
    have : (enum m.shape).map (fun k => x.get (glue b p k) * (unpackDirect m b y).get (glue b p k)) =
        (enum m.shape).map fun k => if m.get k then x.get (glue b p k) * y.get (glue b p [(selected m).idxOf k]) else 0 := by
      refine List.map_congr_left fun k hk => ?_
      rw [unpack_get p (enum_length hk)]
      split <;> simp
    rw [this, sum_kept m fun k j => x.get (glue b p k) * y.get (glue b p [j]), enum_single]
    simp [Function.comp_def, pack_get]

theorem single_inShape {n : Nat} {q : MIndex} (h : inShape [n] q = true) : ∃ j < n, q = [j] := by
  rw [← mem_enum, enum_single] at h
  obtain ⟨j, hj, rfl⟩ := List.mem_map.1 h
  exact ⟨j, List.mem_range.1 hj, rfl⟩

theorem selected_getD {m : Data Bool} {j : Nat} (hj : j < count m) : (selected m).getD j [] ∈ selected m := by
  have : (selected m).getD j [] = (selected m)[j]'hj := by rw [List.getD_eq_getElem?_getD, List.getElem?_eq_getElem hj, Option.getD_some]
  rw [this]
  exact List.getElem_mem hj

theorem pack_unpack {m : Data Bool} {b : Kind} {y : Data R} {pre : Shape} (h : y.shape = glue b pre [count m])
    (hs : (packDirect m b (unpackDirect m b y)).shape = glue b pre [count m]) : Same (packDirect m b (unpackDirect m b y)) y := by
  refine ⟨hs.trans h.symm, fun k hk => ?_⟩
  rw [hs, inShape_glue] at hk
  obtain ⟨p, q, rfl, -, hq⟩ := hk
  obtain ⟨j, hj, rfl⟩ := single_inShape hq
  have hm := mem_selected.1 (selected_getD hj)
  rw [pack_get, unpack_get p (Broadcast.inShape_length hm.1), if_pos hm.2, idxOf_getD (selected_nodup m) hj]

/-- C29: packing after unpacking is the identity. -/
theorem C29_inverse {m : Data Bool} {b : Kind} {P U : Op R} (hP : packOperator m b = some P) (hU : unpackOperator m b = some U)
    (hm : m.shape ≠ []) {y uy : Data R} (hy : U.call y = some uy) : ∃ z, P.call uy = some z ∧ Same z y := by
  rcases pack_cases hP with ⟨o, rfl, e, ho⟩ | ⟨rfl, e⟩
  · rw [hU] at e
    obtain rfl := Option.some.inj e
    have hy' := hy
    obtain rfl := ho _ _ hy
    exact ⟨_, hy', rfl, fun _ _ => rfl⟩
  · rw [hU] at e
    obtain rfl := Option.some.inj e
    generalize defaultKind m.shape (some b) = b at *
    obtain ⟨h2, rfl⟩ := unpack_call hy
    obtain ⟨pre, e3, e4⟩ := unpack_shape h2
    have e6 : (unpackDirect m b y).shape = glue b pre m.shape := e4
    have hl : m.shape.length ≠ 0 := by simpa using hm
    refine ⟨packDirect m b (unpackDirect m b y), ?_, ?_⟩
    · rw [pack_call_eq, if_pos]
      rw [e6]
      split
      · rename_i hb
        subst hb
        have : pre = [] := by
          simp [e3, glue] at h2
          exact h2
        simp [this, glue]
      · unfold validateUnpacked glue lastOf
        by_cases hb : b = .rightward
        · simp [hb]
        · simp [hb, hl]
    · refine pack_unpack e3 ?_
      show reshapeUnpacked m b (unpackDirect m b y).shape = _
      rw [e6]
      unfold reshapeUnpacked glue initOf
      by_cases hb : b = .rightward
      · simp [hb]
      · simp [hb, hl]

theorem glue_default {m : Data Bool} (b : Kind) {k : MIndex} (hk : k.length = m.shape.length) (p : MIndex) :
    glue (defaultKind m.shape (some b)) p k = glue b p k := by
  unfold defaultKind glue
  by_cases h : m.shape = []
  · have : k = [] := by simpa [h] using hk
    subst this
    simp
  · simp [h]

theorem keeps_all {m : Data Bool} {b : Kind} {o : Broadcast.Op R} (h : packOperator m b = some (.diagonal o)) :
    ∀ k, inShape m.shape k = true → m.get k = true := by
  intro k hk
  unfold packOperator at h
  split at h
  · exact absurd h (by simp)
  · split at h
    · rename_i h1
      simpa using List.all_eq_true.1 h1 _ (mem_flat.2 ⟨k, hk, rfl⟩)
    · exact absurd h (by simp)

/-- C29: unpacking after packing keeps the kept elements and zeroes the other ones. -/
theorem C29_mask {m : Data Bool} {b : Kind} {P U : Op R} (hP : packOperator m b = some P) (hU : unpackOperator m b = some U)
    {x px z : Data R} (hx : P.call x = some px) (hz : U.call px = some z) :
    z.shape = x.shape ∧ ∀ pre, x.shape = glue b pre m.shape → ∀ p k, inShape pre p = true → inShape m.shape k = true →
      z.get (glue b p k) = if m.get k then x.get (glue b p k) else 0 := by
  rcases pack_cases hP with ⟨o, rfl, e, ho⟩ | ⟨rfl, e⟩
  · have hall := keeps_all hP
    rw [hU] at e
    obtain rfl := Option.some.inj e
    obtain rfl := ho _ _ hx
    obtain rfl := ho _ _ hz
    refine ⟨rfl, fun pre _ p k _ hk => ?_⟩
    rw [if_pos (hall k hk)]
  · rw [hU] at e
    obtain rfl := Option.some.inj e
    obtain ⟨h1, rfl⟩ := pack_call hx
    obtain ⟨h2, rfl⟩ := unpack_call hz
    obtain ⟨pre, e1, e2⟩ := pack_shape h1
    obtain ⟨pre', e3, e4⟩ := unpack_shape h2
    have e5 : (packDirect m (defaultKind m.shape (some b)) x).shape = glue (defaultKind m.shape (some b)) pre [count m] := e2
    rw [e5] at e3
    obtain rfl := glue_left_inj e3
    refine ⟨e4.trans e1.symm, fun pre' _ p k _ hk => ?_⟩
    have hl := Broadcast.inShape_length hk
    rw [← glue_default b hl p, unpack_get p hl]
    by_cases hm : m.get k = true
    · rw [if_pos hm, if_pos hm, pack_get, getD_idxOf (mem_selected.2 ⟨hk, hm⟩)]
    · rw [if_neg hm, if_neg hm]

/-- C29: the composition of the transpose of an unpack operator and of itself is replaced by the identity, which has the same effect. -/
theorem C29_simplify_partial {m : Data Bool} {b : Kind} {U P : Op R} {I : Broadcast.Op R} (hU : unpackOperator m b = some U)
    (hI : U.ruleTransposed = some I) (hP : U.T = some P) {y uy z : Data R} (hy : U.call y = some uy) (hz : P.call uy = some z) :
    ∃ w, I.call y = some w ∧ Same z w := by
  have h0 : m.flat ≠ [] := by
    intro h
    simp [unpackOperator, h] at hU
  unfold unpackOperator at hU
  rw [if_neg h0] at hU
  by_cases h1 : m.flat.all (· == true) = true
  · rw [if_pos h1] at hU
    obtain rfl := Option.some.inj hU
    exact absurd hI (by simp [Op.ruleTransposed])
  · rw [if_neg h1] at hU
    obtain rfl := Option.some.inj hU
    obtain rfl : _ = I := Option.some.inj hI
    simp only [Op.T, packOperator, kind_kind] at hP
    rw [if_neg h0, if_neg h1] at hP
    obtain rfl := Option.some.inj hP
    generalize defaultKind m.shape (some b) = b at *
    obtain ⟨h2, rfl⟩ := unpack_call hy
    obtain ⟨h3, rfl⟩ := pack_call hz
    obtain ⟨pre, e1, e2⟩ := unpack_shape h2
    obtain ⟨pre', e3, e4⟩ := pack_shape h3
    rw [show (unpackDirect m b y).shape = glue b pre m.shape from e2] at e3
    obtain rfl := glue_left_inj e3
    exact ⟨y, by simp [Broadcast.Op.call], pack_unpack e1 e4⟩

/-- C64: packing returns the kept elements in order, as a vector that replaces the dimensions of the mask, if they are not all kept. -/
theorem C64_vector_partial {m : Data Bool} {b : Kind} {P : Op R} (hP : packOperator m b = some P) {x px : Data R}
    (hm : m.shape.length = 1 ∨ ∃ k, inShape m.shape k = true ∧ m.get k = false) (hx : P.call x = some px)
    {pre : Shape} (hs : x.shape = glue b pre m.shape) :
    px.shape = glue b pre [m.flat.count true] ∧ ∀ p, inShape pre p = true →
      (List.range (m.flat.count true)).map (fun j => px.get (glue b p [j])) =
        (((enum m.shape).map fun k => (m.get k, x.get (glue b p k))).filter (·.1)).map (·.2) := by
  have hc : m.flat.count true = count m := by
    unfold Data.flat count selected
    rw [List.count_eq_countP, List.countP_map, List.countP_eq_length_filter]
    congr 2
    funext k
    simp
  rcases pack_cases hP with ⟨o, rfl, e, ho⟩ | ⟨rfl, e⟩
  · have hall := keeps_all hP
    have hm : m.shape.length = 1 := by
      rcases hm with h | ⟨k, h, h'⟩
      · exact h
      · rw [hall k h] at h'
        exact absurd h' (by simp)
    obtain ⟨n, hn⟩ := List.length_eq_one_iff.1 hm
    obtain rfl := ho _ _ hx
    have hsel : selected m = enum m.shape := List.filter_eq_self.2 fun k hk => hall k (mem_enum.1 hk)
    have hcn : count m = n := by simp [count, hsel, hn, enum_single]
    rw [hc, hcn]
    refine ⟨hn ▸ hs, fun p _ => ?_⟩
    rw [List.filter_eq_self.2 (by
      rintro ⟨a, v⟩ ha
      obtain ⟨k, hk, e⟩ := List.mem_map.1 ha
      have := hall k (mem_enum.1 hk)
      simp_all)]
    simp [hn, enum_single, Function.comp_def]
  · obtain ⟨h1, rfl⟩ := pack_call hx
    obtain ⟨pre', e1, e2⟩ := pack_shape h1
    have hd : ∀ q, glue (defaultKind m.shape (some b)) q m.shape = glue b q m.shape := glue_default b rfl
    rw [hs, hd] at e1
    obtain rfl := glue_left_inj e1
    have hg : ∀ p, inShape pre p = true ∨ p = pre → ∀ j, glue (defaultKind m.shape (some b)) p [j] = glue b p [j] := by
      intro p hp j
      by_cases h : m.shape = []
      · have hx0 : x.shape = [] := by
          rw [h] at h1
          have : defaultKind [] (some b) = .disabled ∨ defaultKind [] (some b) = .scalar := by
            cases b <;> simp [defaultKind]
          rcases this with e | e <;> rw [e] at h1 <;> simpa [validateUnpacked, lastOf, h] using h1
        have hpre : pre = [] := by
          have := congrArg List.length (hs.symm.trans hx0)
          unfold glue at this
          rw [h] at this
          split at this <;> simpa using this
        have : p = [] := by
          rcases hp with hp | hp
          · subst hpre
            cases p with
            | nil => rfl
            | cons => simp [inShape] at hp
          · rw [hp, hpre]
        subst this
        simp [glue]
      · unfold defaultKind
        simp [h]
    rw [hc]
    refine ⟨?_, fun p hp => ?_⟩
    · show reshapeUnpacked m _ x.shape = _
      rw [e2, hg pre (.inr rfl)]
    · have : (fun j => (packDirect m (defaultKind m.shape (some b)) x).get (glue b p [j])) =
          fun j => x.get (glue (defaultKind m.shape (some b)) p ((selected m).getD j [])) := by
        funext j
        rw [← hg p (.inl hp), pack_get]
      rw [this, show count m = (selected m).length from rfl,
        map_range_getD (selected m) [] fun k => x.get (glue (defaultKind m.shape (some b)) p k)]
      rw [List.filter_map, List.map_map]
      unfold selected
      refine List.map_congr_left fun k hk => ?_
      have := enum_length (List.mem_filter.1 hk).1
      simp [glue_default b this p]

end

/-! ### Examples and violations -/

def maskData (l : List Bool) : Data Bool := ⟨[l.length], fun k => l.getD (k.headD 0) false⟩

def vector (l : List Int) : Data Int := ⟨[l.length], fun k => l.getD (k.headD 0) 0⟩

/-- The hypotheses of the theorems are met: the even elements of a vector of 3. -/
example : packOperator (R := Int) (maskData [true, false, true]) .disabled = some (.pack (maskData [true, false, true]) .disabled) ∧
    unpackOperator (R := Int) (maskData [true, false, true]) .disabled = some (.unpack (maskData [true, false, true]) .disabled) ∧
    (Op.pack (maskData [true, false, true]) .disabled).call (vector [5, 6, 7]) =
      some (packDirect (maskData [true, false, true]) .disabled (vector [5, 6, 7])) ∧
    (packDirect (maskData [true, false, true]) .disabled (vector [5, 6, 7])).flat = [5, 7] ∧
    (Op.unpack (maskData [true, false, true]) .disabled).call (vector [8, 9]) =
      some (unpackDirect (maskData [true, false, true]) .disabled (vector [8, 9])) ∧
    (unpackDirect (maskData [true, false, true]) .disabled (vector [8, 9])).flat = [8, 0, 9] := by
  refine ⟨rfl, rfl, rfl, by decide, rfl, by decide⟩

/-- The hypotheses of the theorems are met with broadcasting: the mask selects rows. -/
example : ∃ px : Data Int, (Op.pack (maskData [true, false, true]) .rightward).call
      ⟨[3, 2], fun k => 10 * (k.getD 0 0 : Int) + k.getD 1 0⟩ = some px ∧ px.shape = [2, 2] ∧ px.flat = [0, 1, 20, 21] :=
  ⟨_, rfl, by decide, by decide⟩

/-- C29: the composition of the transpose of a pack operator and of itself is replaced by the identity, although it zeroes the
elements that are not kept. -/
theorem C29_simplify_fails : ∃ (m : Data Bool) (P U : Op Int) (I : Broadcast.Op Int) (x px z w : Data Int),
    packOperator m .disabled = some P ∧ P.T = some U ∧ P.ruleTransposed = some I ∧ P.call x = some px ∧ U.call px = some z ∧
      I.call x = some w ∧ ¬ Same z w := by
  refine ⟨maskData [true, false], .pack (maskData [true, false]) .disabled, .unpack (maskData [true, false]) .disabled,
    ⟨.identity, none⟩, vector [1, 2], packDirect (maskData [true, false]) .disabled (vector [1, 2]),
    unpackDirect (maskData [true, false]) .disabled (packDirect (maskData [true, false]) .disabled (vector [1, 2])), vector [1, 2],
    rfl, rfl, rfl, rfl, rfl, rfl, ?_⟩
  rintro ⟨-, h⟩
  exact absurd (h [1] (by decide)) (by decide)

/-- C29: unpacking and packing with the mask `False`, broadcast over a vector, is not the identity but an exception. -/
theorem C29_inverse_fails : ∃ (m : Data Bool) (P U : Op Int) (y uy : Data Int), packOperator m .leftward = some P ∧
    unpackOperator m .leftward = some U ∧ U.call y = some uy ∧ P.call uy = none :=
  ⟨⟨[], fun _ => false⟩, .pack ⟨[], fun _ => false⟩ .scalar, .unpack ⟨[], fun _ => false⟩ .scalar, ⟨[3, 0], fun _ => 0⟩,
    unpackDirect ⟨[], fun _ => false⟩ .scalar ⟨[3, 0], fun _ => 0⟩, rfl, rfl, rfl, rfl⟩

/-- C64: a mask that keeps all the elements of a matrix does not make a vector of them. -/
theorem C64_vector_fails : ∃ (m : Data Bool) (P : Op Int) (x px : Data Int), packOperator m .disabled = some P ∧
    P.call x = some px ∧ m.flat.count true = 4 ∧ px.shape = [2, 2] := by
  refine ⟨⟨[2, 2], fun _ => true⟩, .diagonal (diagonalOperator id (.bools ⟨[2, 2], fun _ => true⟩) (some .disabled)),
    ⟨[2, 2], fun _ => 1⟩, ⟨[2, 2], fun _ => 1⟩, rfl, ?_, by decide, rfl⟩
  rw [diagonal_identity _ (by decide) (by decide)]
  rfl

end Verif.Pack
