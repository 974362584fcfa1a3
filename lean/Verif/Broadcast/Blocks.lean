import Verif.Broadcast.Constants
import Verif.Block.Pieces

/-
Model of the distribution of a diagonal, mask or constant operator over the blocks of a block operator: src/pyoperators/core.py:4038-4135
(`BroadcastingBase._rule_block`, `_rule_left_block` and `_rule_right_block`), and property C81.
-/

namespace Verif.Broadcast

open Verif.Shape
open Verif.Block hiding Fits inShape_length inShape_append

variable {R : Type}

/-- The integers of an index are less than the dimensions they select. -/
def indexOk : List Index → Shape → Bool
  | .at k :: idx, d :: s => decide (k < d) && indexOk idx s
  | _ :: idx, _ :: s => indexOk idx s
  | _, _ => true

/-- `data[tuple(s)]`, for an index that contains an ellipsis.  `none` is the exception IndexError: too many indices, or an integer that
is out of bounds. -/
def index (d : Data R) (idx : List Index) : Option (Data R) :=
  if d.shape.length < idx.length - 1 then none
  else
    let e := expand d.shape.length idx
    if indexOk e d.shape then some ⟨viewShape e d.shape, fun l => d.get (place e l)⟩ else none

/-- The choice between the replication and the slicing of the data. -/
inductive Decision where
  | refuse
  | replicate
  | slice (ax : Axis)
deriving DecidableEq, Repr

/-- `axis - len(shape)`, or `new_axis - len(shape)`: src/pyoperators/core.py:4080-4083. -/
def shift (n : Nat) : Axis → Axis
  | .axis a => .axis (a - n)
  | .newAxis a => .newAxis (a - n)

/-- src/pyoperators/core.py:4047-4085.  `ndim` is the number of dimensions of the data. -/
def decision (b : Kind) (ndim : Nat) (shape : Option Shape) (ax : Axis) : Decision :=
  match b, shape with
  | .scalar, none => .replicate
  | .scalar, some _ => .slice ax
  | .disabled, _ => .slice ax
  | .rightward, none =>
    if ndim = 1 ∧ ax = .newAxis (-1) then .replicate
    else if ax.pos > ndim then .replicate
    else if ax.pos < 0 then .refuse
    else .slice ax
  | .leftward, none =>
    if ndim = 1 ∧ ax = .newAxis 0 then .replicate
    else if ax.pos < -(ndim : Int) then .replicate
    else if ax.pos ≥ 0 then .refuse
    else .slice ax
  | .rightward, some _ => if ax.pos > ndim then .replicate else .slice ax
  | .leftward, some s => if ax.pos - s.length < -(ndim : Int) then .replicate else .slice (shift s.length ax)

/-- The list of the values, if there are no `None`. -/
def allSome {β : Type} : List (Option β) → Option (List β)
  | [] => some []
  | none :: _ => none
  | some v :: l => (allSome l).map (v :: ·)

/-- The slices of the data: src/pyoperators/core.py:4090-4109.  `strict` says whether the class refuses empty data, which is the case of
the constants (4446) and of the homotheties (4370).  The identity and the zero operator, whose slices are the operator itself (4098-4099),
are not distinguished from the homothety and the constant that have the same values. -/
def sliced (strict : Bool) (d : Data R) (b : Kind) (ps : List Nat) (ax : Axis) : Outcome (List (Data R × Kind)) :=
  match allSome ((getSlices ps ax).map (index d)) with
  | none => .error
  | some ds => if strict && ds.any (·.flat.isEmpty) then .error else .result (ds.map fun d => (d, b))

/-- `_rule_block`: src/pyoperators/core.py:4038-4121.  The result is the list of the data and broadcast of the operators that are combined
with the blocks. -/
def ruleBlock (strict : Bool) (a : Strided R) (b : Kind) (shape : Option Shape) (partition : Option (List (Option Nat))) (ax : Axis) :
    Outcome (List (Data R × Kind)) :=
  match partition with
  | none => .refused
  | some ps =>
    if ps.any Option.isNone && b != .scalar then .refused
    else
      match decision b a.shape.length shape ax with
      | .refuse => .refused
      | .replicate => .result (ps.map fun _ => (a.toData, b))
      | .slice ax =>
        match allSome ps with
        | none => .error
        | some ps => sliced strict (a.asStrided b shape).toData b ps ax

/-- A diagonal or mask operator (with the product), or a constant (with the sum or the product of operators), for arrays of a given shape:
each element of the input is combined with a coefficient. -/
def element (f : R → R → R) (data : Data R) (b : Kind) : Operand R := { fn := fun _ y k => f (y k) (coefficient data b k) }

/-! ### Specification -/

/-- The operators of the list have, on the parts of an array of shape t, the coefficients that the original operator has there. -/
def IsPieces (data : Data R) (b : Kind) (t : Shape) (idxs : List (List Index)) (ps : List (Data R × Kind)) : Prop :=
  ps.length = idxs.length ∧ ∀ (i : Nat) (p : Data R × Kind), ps[i]? = some p →
    Compatible p.1.shape p.2 (partShape t idxs i) ∧ ∀ l, inShape (partShape t idxs i) l = true →
      coefficient p.1 p.2 l = coefficient data b (place (part t idxs i) l)

/-- The dimension of the data that is used along the axis j of an array of shape t. -/
def dimensionAt (s : Shape) (b : Kind) (t : Shape) (j : Nat) : Option Nat :=
  (aligned b s)[if b = .rightward then j else t.length - 1 - j]?

/-! ### Proofs -/

theorem allSome_some {β : Type} : ∀ l : List β, allSome (l.map some) = some l
  | [] => rfl
  | v :: l => by simp [allSome, allSome_some l]

theorem any_isNone {β : Type} (l : List β) : (l.map some).any Option.isNone = false := by
  induction l with
  | nil => rfl
  | cons v l ih => simp [ih]

theorem allSome_eq {β : Type} {l : List (Option β)} {m : List β} (h : l = m.map some) : allSome l = some m := by
  rw [h, allSome_some]

theorem allSome_iff {β : Type} : ∀ {l : List (Option β)} {m : List β}, allSome l = some m → l = m.map some
  | [], m, h => by simp [allSome] at h; subst h; rfl
  | none :: l, m, h => by simp [allSome] at h
  | some v :: l, m, h => by
    simp only [allSome, Option.map_eq_some_iff] at h
    obtain ⟨m', h1, rfl⟩ := h
    rw [allSome_iff h1]; rfl

theorem indexOk_all : ∀ (n : Nat) (s : Shape), indexOk (List.replicate n .all) s = true
  | 0, _ => rfl
  | _ + 1, [] => rfl
  | n + 1, _ :: s => by simp [List.replicate_succ, indexOk, indexOk_all n s]

theorem indexOk_range (a b : Nat) (m : Nat) : ∀ (n : Nat) (s : Shape), indexOk (along n m (.range a b)) s = true
  | 0, [] => rfl
  | 0, _ :: s => by simp [along, indexOk, indexOk_all]
  | _ + 1, [] => rfl
  | n + 1, _ :: s => by
    have := indexOk_range a b m n s
    simpa [along, List.replicate_succ, indexOk] using this

theorem indexOk_at (k d m : Nat) (s2 : Shape) (h : k < d) : ∀ (s1 : Shape), indexOk (along s1.length m (.at k)) (s1 ++ d :: s2) = true
  | [] => by simp [along, indexOk, indexOk_all, h]
  | _ :: s => by
    have := indexOk_at k d m s2 h s
    simpa [along, List.replicate_succ, indexOk] using this

theorem slice_length {ps : List Nat} {ax : Axis} {i : Nat} {idx : List Index} (hi : (getSlices ps ax)[i]? = some idx) :
    idx.length = (template ax.pos).length := by
  unfold getSlices at hi
  rw [slices_get, Option.map_eq_some_iff] at hi
  obtain ⟨n, -, rfl⟩ := hi
  simp

/-- The slices of an array whose axis fits the partition. -/
theorem index_slice (d : Data R) {ps : List Nat} {ax : Axis} (h : Block.Fits ps ax d.shape) {i : Nat} {idx : List Index}
    (hi : (getSlices ps ax)[i]? = some idx) :
    index d idx = some ⟨partShape d.shape (getSlices ps ax) i, fun l => d.get (place (part d.shape (getSlices ps ax) i) l)⟩ := by
  have hlen : ¬ d.shape.length < idx.length - 1 := by
    rw [slice_length hi]
    have h1 := h.lower
    have h2 := h.upper
    simp only [template]
    split
    · simp; omega
    · simp; omega
  have hpt := part_of_get (s := d.shape) hi
  have hok : indexOk (expand d.shape.length idx) d.shape = true := by
    obtain ⟨n, h1, h2⟩ := slice_along h hi
    rw [h2]
    cases ax with
    | axis a => exact indexOk_range _ _ _ _ _
    | newAxis a =>
      obtain ⟨s1, s2, hs, e1, e2⟩ := h.split
      have h3 := take_sum_le ps h1
      have h4 := h.ones a rfl n (List.mem_of_getElem? h1)
      rw [← e1]
      simp only [Axis.item]
      rw [hs]
      exact indexOk_at _ _ _ _ (by omega) s1
  simp only [index, if_neg hlen, hok, if_true]
  rw [partShape, hpt]

theorem slices_length (ps : List Nat) (ax : Axis) : (getSlices ps ax).length = ps.length := by
  apply le_antisymm
  · by_contra h
    have : ∃ idx, (getSlices ps ax)[ps.length]? = some idx := ⟨_, List.getElem?_eq_getElem (by omega)⟩
    obtain ⟨idx, h⟩ := this
    unfold getSlices at h
    rw [slices_get] at h
    simp at h
  · by_contra h
    have h' : (getSlices ps ax)[(getSlices ps ax).length]? = none := by simp
    unfold getSlices at h' h
    rw [slices_get] at h'
    simp at h'
    omega

theorem slices_some (ps : List Nat) (ax : Axis) {i : Nat} (hi : i < ps.length) : ∃ idx, (getSlices ps ax)[i]? = some idx :=
  ⟨_, List.getElem?_eq_getElem (by rw [slices_length]; exact hi)⟩

/-- All the slices of an array whose axis fits the partition. -/
theorem index_slices (d : Data R) {ps : List Nat} {ax : Axis} (h : Block.Fits ps ax d.shape) :
    allSome ((getSlices ps ax).map (index d)) = some ((List.range ps.length).map fun i =>
      ⟨partShape d.shape (getSlices ps ax) i, fun l => d.get (place (part d.shape (getSlices ps ax) i) l)⟩) := by
  apply allSome_eq
  apply List.ext_getElem?
  intro i
  by_cases hi : i < ps.length
  · obtain ⟨idx, hg⟩ := slices_some ps ax hi
    rw [List.getElem?_map, hg, Option.map_some, index_slice d h hg]
    simp [hi]
  · rw [List.getElem?_eq_none (by simp [slices_length]; omega), List.getElem?_eq_none (by simp; omega)]

/-- The parts depend on the position of the axis only. -/
theorem part_congr {ps : List Nat} {ax ax' : Axis} {t t' : Shape} (h : Block.Fits ps ax t) (h' : Block.Fits ps ax' t')
    (hn : ∀ x y, ax.item x y = ax'.item x y) {i : Nat} (hi : i < ps.length) :
    ∃ n, ps[i]? = some n ∧ part t (getSlices ps ax) i = along (pyIndex t.length ax.pos) (t.length - pyIndex t.length ax.pos - 1) (ax.item (ps.take i).sum n) ∧
      part t' (getSlices ps ax') i =
        along (pyIndex t'.length ax'.pos) (t'.length - pyIndex t'.length ax'.pos - 1) (ax.item (ps.take i).sum n) := by
  obtain ⟨idx, hg⟩ := slices_some ps ax hi
  obtain ⟨idx', hg'⟩ := slices_some ps ax' hi
  obtain ⟨n, h1, h2⟩ := slice_along h hg
  obtain ⟨n', h1', h2'⟩ := slice_along h' hg'
  rw [h1] at h1'
  obtain rfl := Option.some.inj h1'
  refine ⟨n, h1, ?_, ?_⟩
  · rw [part_of_get hg, h2]
  · rw [part_of_get hg', h2', hn]

theorem bindex_front : ∀ {s l : List Nat} (x : List Nat), s.length ≤ l.length → bindex s (l ++ x) = bindex s l
  | [], _, _, _ => by simp [bindex]
  | d :: s, i :: l, x, h => by simp [bindex, bindex_front x (by simpa using h)]

theorem fits_front : ∀ {s t : List Nat} (x : List Nat), s.length ≤ t.length → (Fits s (t ++ x) ↔ Fits s t)
  | [], _, _, _ => by simp [Fits]
  | d :: s, e :: t, x, h => by simp [Fits, fits_front x (by simpa using h)]

theorem bindex_split : ∀ {s l : List Nat} (s' l' : List Nat), s.length = l.length → bindex (s ++ s') (l ++ l') = bindex s l ++ bindex s' l'
  | [], [], _, _, _ => by simp [bindex]
  | d :: s, i :: l, s', l', h => by simp [bindex, bindex_split s' l' (by simpa using h)]

theorem fits_split : ∀ {s t : List Nat} (s' t' : List Nat), s.length = t.length → (Fits (s ++ s') (t ++ t') ↔ Fits s t ∧ Fits s' t')
  | [], [], _, _, _ => by simp [Fits]
  | d :: s, e :: t, s', t', h => by simp [Fits, fits_split s' t' (by simpa using h), and_assoc]

theorem bindex_length : ∀ {s l : List Nat}, s.length ≤ l.length → (bindex s l).length = s.length
  | [], _, _ => by simp [bindex]
  | d :: s, i :: l, h => by simp [bindex, bindex_length (s := s) (l := l) (by simpa using h)]

/-- A part of an array: its shape, and the place of its elements in the array. -/
theorem part_view {ps : List Nat} {ax : Axis} {s1 s2 : Shape} {e i n : Nat} (he : e = ps.sum) (hn : ps[i]? = some n)
    (ones : ∀ a, ax = .newAxis a → n = 1) :
    ∃ mid, viewShape (along s1.length s2.length (ax.item (ps.take i).sum n)) (s1 ++ e :: s2) = s1 ++ (mid ++ s2) ∧
      (mid = [n] ∧ (∀ x y, ax.item x y = .range x (x + y)) ∨ mid = [] ∧ n = 1 ∧ ∀ x y, ax.item x y = .at x) := by
  have h := take_sum_le ps hn
  cases ax with
  | axis a =>
    refine ⟨[n], ?_, .inl ⟨rfl, fun _ _ => rfl⟩⟩
    simp only [Axis.item]
    rw [along_range_shape, Nat.min_eq_left (by omega), Nat.min_eq_left (by omega)]
    simp
  | newAxis a =>
    refine ⟨[], ?_, .inr ⟨rfl, ones a rfl, fun _ _ => rfl⟩⟩
    simp only [Axis.item]
    rw [along_at_shape]
    rfl

/-- The place in the array of an element of a part. -/
theorem part_place {ax : Axis} {s1 s2 mid : Shape} {n d : Nat}
    (h : mid = [n] ∧ (∀ x y, ax.item x y = .range x (x + y)) ∨ mid = [] ∧ n = 1 ∧ ∀ x y, ax.item x y = .at x) {l : MIndex}
    (hl : inShape (s1 ++ (mid ++ s2)) l = true) :
    ∃ l1 m l2 j, l = l1 ++ (m ++ l2) ∧ l1.length = s1.length ∧ l2.length = s2.length ∧ m.length = mid.length ∧ bindex mid m = m ∧ j < n ∧
      (∀ l1' l2' : MIndex, l1'.length = l1.length → place (along s1.length s2.length (ax.item d n)) (l1' ++ (m ++ l2')) = l1' ++ (d + j) :: l2') ∧
      (∀ a b (l1' l2' : MIndex), l1'.length = a → place (along a b (ax.item d n)) (l1' ++ (m ++ l2')) = l1' ++ (d + j) :: l2') := by
  rcases h with ⟨rfl, h⟩ | ⟨rfl, rfl, h⟩
  · obtain ⟨l1, j, l2, rfl, h1, h2, h3, h4⟩ := inShape_split hl
    refine ⟨l1, [j], l2, j, rfl, h1, Verif.Broadcast.inShape_length h4, rfl, ?_, h3, ?_, ?_⟩
    · simp only [bindex]
      split
      · have : j = 0 := by omega
        rw [this]
      · rfl
    · intro l1' l2' hl'
      rw [h]
      exact along_range_place _ _ _ _ _ _ _ (hl'.trans h1)
    · intro a b l1' l2' hl'
      rw [h]
      exact along_range_place _ _ _ _ _ _ _ hl'
  · obtain ⟨l1, l2, rfl, h1, h2, h4⟩ := inShape_split' hl
    refine ⟨l1, [], l2, 0, rfl, h1, Verif.Broadcast.inShape_length h4, rfl, rfl, by omega, ?_, ?_⟩
    · intro l1' l2' hl'
      rw [h]
      exact along_at_place _ _ _ _ _ (hl'.trans h1)
    · intro a b l1' l2' hl'
      rw [h]
      exact along_at_place _ _ _ _ _ hl'

/-- The data have no dimension along the axis: they can be replicated. -/
theorem replicate_piece (data : Data R) (b : Kind) {ps : List Nat} {ax : Axis} {t : Shape} (h : Block.Fits ps ax t)
    (hf : Fits (aligned b data.shape) (aligned b t)) (hb : b ≠ .disabled)
    (hn : data.shape.length ≤ if b = .rightward then pyIndex t.length ax.pos else t.length - pyIndex t.length ax.pos - 1) {i : Nat}
    (hi : i < ps.length) :
    Compatible data.shape b (partShape t (getSlices ps ax) i) ∧ ∀ l, inShape (partShape t (getSlices ps ax) i) l = true →
      coefficient data b l = coefficient data b (place (part t (getSlices ps ax) i) l) := by
  obtain ⟨n, h1, h2, -⟩ := part_congr h h (fun _ _ => rfl) hi
  obtain ⟨s1, s2, hs, e1, e2⟩ := h.split
  rw [← e2, ← e1] at h2 hn
  obtain ⟨mid, hv, hm⟩ := part_view (s1 := s1) (s2 := s2) (ax := ax) rfl h1 (fun a ha => h.ones a ha n (List.mem_of_getElem? h1))
  rw [← hs] at hv
  rw [partShape, h2, hv]
  rw [hs] at hf
  constructor
  · simp only [Compatible, if_neg hb]
    by_cases hr : b = .rightward
    · subst hr
      simp only [aligned, if_true] at hf hn ⊢
      rw [fits_front _ hn] at hf ⊢
      exact hf
    · simp only [aligned, if_neg hr, List.reverse_append, List.append_assoc, List.reverse_cons] at hf hn ⊢
      rw [fits_front _ (by simpa using hn)] at hf ⊢
      exact hf
  · intro l hl
    obtain ⟨l1, m, l2, j, rfl, g1, g2, g3, g4, g5, g6, -⟩ := part_place (d := (ps.take i).sum) hm hl
    rw [g6 l1 l2 rfl]
    simp only [coefficient]
    by_cases hr : b = .rightward
    · subst hr
      simp only [aligned, if_true] at hn ⊢
      rw [bindex_front _ (by omega), bindex_front _ (by omega)]
    · simp only [aligned, if_neg hr, List.reverse_append, List.append_assoc, List.reverse_cons] at hn ⊢
      rw [bindex_front _ (by simp; omega), bindex_front _ (by simp; omega)]

/-- The data have the dimension of the array along the axis: they can be sliced. -/
theorem slice_piece (data : Data R) (b : Kind) {ps : List Nat} {ax ax' : Axis} {t : Shape} (h : Block.Fits ps ax t)
    (h' : Block.Fits ps ax' data.shape) (hn : ∀ x y, ax.item x y = ax'.item x y)
    (hc : Compatible data.shape b t)
    (hp : if b = .rightward then pyIndex data.shape.length ax'.pos = pyIndex t.length ax.pos
      else data.shape.length - pyIndex data.shape.length ax'.pos - 1 = t.length - pyIndex t.length ax.pos - 1) {i : Nat}
    (hi : i < ps.length) {p : Data R} (hps : p = ⟨partShape data.shape (getSlices ps ax') i,
      fun l => data.get (place (part data.shape (getSlices ps ax') i) l)⟩) :
    Compatible p.shape b (partShape t (getSlices ps ax) i) ∧ ∀ l, inShape (partShape t (getSlices ps ax) i) l = true →
      coefficient p b l = coefficient data b (place (part t (getSlices ps ax) i) l) := by
  subst hps
  obtain ⟨n, h1, h2, h3⟩ := part_congr h h' hn hi
  obtain ⟨s1, s2, hs, e1, e2⟩ := h.split
  obtain ⟨d1, d2, hd, e1', e2'⟩ := h'.split
  rw [← e2, ← e1] at h2 hp
  rw [← e2', ← e1'] at h3 hp
  obtain ⟨mid, hv, hm⟩ := part_view (s1 := s1) (s2 := s2) (ax := ax) rfl h1 (fun a ha => h.ones a ha n (List.mem_of_getElem? h1))
  have hvd : viewShape (along d1.length d2.length (ax.item (ps.take i).sum n)) data.shape = d1 ++ (mid ++ d2) := by
    obtain ⟨mid', hv', hm'⟩ := part_view (s1 := d1) (s2 := d2) (ax := ax) rfl h1 (fun a ha => h.ones a ha n (List.mem_of_getElem? h1))
    rw [hd, hv']
    rcases hm with ⟨rfl, q⟩ | ⟨rfl, -, q⟩ <;> rcases hm' with ⟨rfl, q'⟩ | ⟨rfl, -, q'⟩ <;>
      first | rfl | (have := (q 0 0).symm.trans (q' 0 0); cases this)
  rw [← hs] at hv
  have hf := hc.fits
  simp only [partShape]
  rw [h2, h3, hv, hvd]
  rw [hs, hd] at hf
  have htot := take_sum_le ps h1
  have hfit : Fits (aligned b (d1 ++ (mid ++ d2))) (aligned b (s1 ++ (mid ++ s2))) ∧ d1.length ≤ s1.length ∧ d2.length ≤ s2.length := by
    by_cases hr : b = .rightward
    · subst hr
      simp only [aligned, if_true] at hf hp ⊢
      rw [fits_split _ _ hp] at hf ⊢
      rw [fits_split _ _ rfl]
      have := hf.2.2.eq_of_length
      exact ⟨⟨hf.1, Fits.refl _, hf.2.2⟩, by omega, this⟩
    · simp only [aligned, if_neg hr, List.reverse_append, List.append_assoc, List.reverse_cons] at hf hp ⊢
      rw [fits_split _ _ (by simpa using hp)] at hf ⊢
      rw [fits_split _ _ rfl]
      have : d1.length ≤ s1.length := by
        have h : Fits d1.reverse s1.reverse := hf.2.2
        replace h := h.eq_of_length
        rwa [List.length_reverse, List.length_reverse] at h
      exact ⟨⟨hf.1, Fits.refl _, hf.2.2⟩, this, by omega⟩
  refine ⟨?_, ?_⟩
  · simp only [Compatible]
    split
    · next hb =>
      subst hb
      replace hc : data.shape = t := by simpa [Compatible] using hc
      rw [hs, hd] at hc
      rw [if_neg (by decide)] at hp
      have hl : d1.length = s1.length := by
        have := congrArg List.length hc
        simp at this
        omega
      have := List.append_inj hc hl
      simp only [List.cons.injEq, true_and] at this
      rw [this.1, this.2]
    · exact hfit.1
  · intro l hl
    obtain ⟨l1, m, l2, j, rfl, g1, g2, g3, g4, g5, g6, g7⟩ := part_place (d := (ps.take i).sum) hm hl
    rw [g6 l1 l2 rfl]
    have hif : (if ps.sum = 1 then 0 else (ps.take i).sum + j) = (ps.take i).sum + j := by
      split
      · omega
      · rfl
    simp only [coefficient]
    by_cases hr : b = .rightward
    · subst hr
      simp only [aligned, if_true] at hp ⊢
      rw [bindex_split _ _ (by omega), bindex_split _ _ (by omega), g4, g7 _ _ _ _ (bindex_length (by omega)), hd,
        bindex_split _ _ (by omega)]
      simp only [bindex, hif]
    · simp only [aligned, if_neg hr, List.reverse_append, List.append_assoc, List.reverse_cons] at hp ⊢
      have g4' : bindex mid.reverse m.reverse = m.reverse := by
        rcases hm with ⟨rfl, -⟩ | ⟨rfl, -, -⟩
        · match m, g3 with
          | [a], _ => exact g4
        · match m, g3 with
          | [], _ => rfl
      rw [bindex_split _ _ (by simp; omega), bindex_split _ _ (by simp; omega), g4', List.reverse_append, List.reverse_append,
        List.reverse_reverse, List.append_assoc, g7 _ _ _ _ (by rw [List.length_reverse, bindex_length (by simp; omega)]; simp), hd]
      simp only [List.reverse_append, List.append_assoc, List.reverse_cons]
      rw [bindex_split _ _ (by simp; omega), bindex_split (s := [ps.sum]) (l := [(ps.take i).sum + j]) _ _ rfl]
      simp only [bindex, hif, List.reverse_append, List.append_assoc, List.reverse_cons, List.reverse_nil, List.nil_append, List.cons_append]

theorem enum_ne : ∀ {s : Shape}, (∀ d ∈ s, 0 < d) → enum s ≠ []
  | [], _ => by simp [enum]
  | d :: s, h => by
    have h1 := h d (by simp)
    have h2 := enum_ne (s := s) fun e he => h e (by simp [he])
    obtain ⟨k, hk⟩ := List.exists_mem_of_ne_nil _ h2
    apply List.ne_nil_of_mem (a := 0 :: k)
    simp only [enum, List.mem_flatMap, List.mem_range, List.mem_map]
    exact ⟨0, h1, k, hk, rfl⟩

theorem fits_pos : ∀ {s t : Shape}, Fits s t → (∀ d ∈ t, 0 < d) → ∀ d ∈ s, 0 < d
  | [], _, _, _ => by simp
  | d :: s, e :: t, h, ht => by
    intro x hx
    rcases List.mem_cons.1 hx with rfl | hx
    · rcases h.1 with rfl | rfl
      · omega
      · exact ht _ (by simp)
    · exact fits_pos h.2 (fun y hy => ht y (by simp [hy])) x hx

theorem aligned_mem (b : Kind) (s : List Nat) (d : Nat) : d ∈ aligned b s ↔ d ∈ s := by
  simp only [aligned]; split <;> simp

/-- The slices of data whose axis fits the partition. -/
theorem sliced_result (strict : Bool) (d : Data R) (b : Kind) {ps : List Nat} {ax : Axis} (h : Block.Fits ps ax d.shape)
    (hs : strict = true → (∀ x ∈ d.shape, 0 < x) ∧ ∀ p ∈ ps, 0 < p) :
    sliced strict d b ps ax = .result ((List.range ps.length).map fun i =>
      (⟨partShape d.shape (getSlices ps ax) i, fun l => d.get (place (part d.shape (getSlices ps ax) i) l)⟩, b)) := by
  simp only [sliced, index_slices d h]
  rw [if_neg]
  · simp only [List.map_map]; rfl
  · rw [Bool.and_eq_true, List.any_eq_true]
    rintro ⟨hst, p, hp, he⟩
    obtain ⟨h1, h2⟩ := hs hst
    obtain ⟨i, hi, rfl⟩ := List.mem_map.1 hp
    rw [List.mem_range] at hi
    simp only [Data.flat, List.isEmpty_iff, List.map_eq_nil_iff] at he
    refine enum_ne ?_ he
    obtain ⟨n, g1, g2, -⟩ := part_congr h h (fun _ _ => rfl) hi
    obtain ⟨s1, s2, hsh, e1, e2⟩ := h.split
    rw [← e2, ← e1] at g2
    obtain ⟨mid, hv, hm⟩ := part_view (s1 := s1) (s2 := s2) (ax := ax) rfl g1 (fun a ha => h.ones a ha n (List.mem_of_getElem? g1))
    rw [← hsh] at hv
    rw [partShape, g2, hv]
    intro x hx
    rw [List.mem_append, List.mem_append] at hx
    rw [hsh] at h1
    rcases hx with hx | hx | hx
    · exact h1 x (by simp [hx])
    · rcases hm with ⟨rfl, -⟩ | ⟨rfl, -⟩
      · rw [List.mem_singleton] at hx
        subst hx
        exact h2 _ (List.mem_of_getElem? g1)
      · simp at hx
    · exact h1 x (by simp [hx])

theorem ruleBlock_eq (strict : Bool) (a : Strided R) (b : Kind) (shape : Option Shape) (ps : List Nat) (ax : Axis) :
    ruleBlock strict a b shape (some (ps.map some)) ax = match decision b a.shape.length shape ax with
      | .refuse => .refused
      | .replicate => .result (ps.map fun _ => (a.toData, b))
      | .slice ax => sliced strict (a.asStrided b shape).toData b ps ax := by
  simp only [ruleBlock, any_isNone, Bool.false_and, Bool.false_eq_true, if_false, allSome_some, List.map_map]
  rfl

/-- The pieces, if the data are replicated. -/
theorem replicated_pieces (data : Data R) (b : Kind) {ps : List Nat} {ax : Axis} {t : Shape} (h : Block.Fits ps ax t)
    (hf : Fits (aligned b data.shape) (aligned b t)) (hb : b ≠ .disabled)
    (hn : data.shape.length ≤ if b = .rightward then pyIndex t.length ax.pos else t.length - pyIndex t.length ax.pos - 1) :
    IsPieces data b t (getSlices ps ax) (ps.map fun _ => (data, b)) := by
  refine ⟨by simp [slices_length], ?_⟩
  intro i p hp
  simp only [List.getElem?_map, Option.map_eq_some_iff] at hp
  obtain ⟨n, hn', rfl⟩ := hp
  exact replicate_piece data b h hf hb hn (List.getElem?_eq_some_iff.1 hn').1

/-- The pieces, if the data are sliced. -/
theorem sliced_pieces (data : Data R) (b : Kind) {ps : List Nat} {ax ax' : Axis} {t : Shape} (h : Block.Fits ps ax t)
    (h' : Block.Fits ps ax' data.shape) (hn : ∀ x y, ax.item x y = ax'.item x y)
    (hc : Compatible data.shape b t)
    (hp : if b = .rightward then pyIndex data.shape.length ax'.pos = pyIndex t.length ax.pos
      else data.shape.length - pyIndex data.shape.length ax'.pos - 1 = t.length - pyIndex t.length ax.pos - 1) :
    IsPieces data b t (getSlices ps ax) ((List.range ps.length).map fun i =>
      (⟨partShape data.shape (getSlices ps ax') i, fun l => data.get (place (part data.shape (getSlices ps ax') i) l)⟩, b)) := by
  refine ⟨by simp [slices_length], ?_⟩
  intro i p hp'
  simp only [List.getElem?_map, Option.map_eq_some_iff] at hp'
  obtain ⟨j, hj, rfl⟩ := hp'
  obtain ⟨hi, rfl⟩ := List.getElem?_eq_some_iff.1 hj
  simp only [List.length_range] at hi
  simp only [List.getElem_range]
  exact slice_piece data b h h' hn hc hp hi rfl

theorem shift_item (n : Nat) (ax : Axis) (x y : Nat) : ax.item x y = (shift n ax).item x y := by cases ax <;> rfl

theorem shift_pos (n : Nat) (ax : Axis) : (shift n ax).pos = ax.pos - n := by cases ax <;> rfl

theorem shift_fits {ps : List Nat} {ax : Axis} {t : Shape} (h : Block.Fits ps ax t) (h0 : 0 ≤ ax.pos) :
    Block.Fits ps (shift t.length ax) t ∧ pyIndex t.length (shift t.length ax).pos = pyIndex t.length ax.pos := by
  have h1 := h.upper
  have e : pyIndex t.length (shift t.length ax).pos = pyIndex t.length ax.pos := by
    simp only [pyIndex, shift_pos, if_pos h0]
    rw [if_neg (by omega)]
    congr 1; omega
  refine ⟨⟨by rw [shift_pos]; omega, by rw [shift_pos]; omega, by rw [e]; exact h.total, ?_⟩, e⟩
  intro a ha
  cases ax with
  | axis x => simp [shift] at ha
  | newAxis x => exact h.ones x rfl

/-- C81 (partial): the shape of the array is known.  The coefficients are distributed to the blocks as they should be, for contiguous data. -/
theorem C81_known_partial (strict : Bool) (a : Strided R) (ha : a.Contiguous) (b : Kind) {t : Shape} (hc : Compatible a.shape b t)
    {ps : List Nat} {ax : Axis} (h : Block.Fits ps ax t) (h0 : 0 ≤ ax.pos)
    (hs : strict = true → (∀ d ∈ t, 0 < d) ∧ ∀ p ∈ ps, 0 < p) :
    ∃ ds, ruleBlock strict a b (some t) (some (ps.map some)) ax = .result ds ∧ IsPieces a.toData b t (getSlices ps ax) ds := by
  have hf := hc.fits
  have hsl : ∀ ax', Block.Fits ps ax' t → (∀ x y, ax.item x y = ax'.item x y) → pyIndex t.length ax'.pos = pyIndex t.length ax.pos →
      ∃ ds, sliced strict (a.asStrided b (some t)).toData b ps ax' = .result ds ∧ IsPieces a.toData b t (getSlices ps ax) ds := by
    intro ax' h' hn hp
    have hsh : (a.asStrided b (some t)).toData.shape = t := rfl
    refine ⟨_, sliced_result strict _ b (by rw [hsh]; exact h') (by rw [hsh]; exact hs), ?_⟩
    have key := sliced_pieces (a.asStrided b (some t)).toData b h (ax' := ax') (by rw [hsh]; exact h') hn
      (by rw [hsh]; simp only [Compatible]; split; trivial; exact Fits.refl _) (by rw [hsh, hp]; split <;> rfl)
    refine ⟨key.1, fun i p hi => ⟨(key.2 i p hi).1, fun l hl => ?_⟩⟩
    rw [(key.2 i p hi).2 l hl]
    have hi' : i < (getSlices ps ax).length := by rw [← key.1]; exact (List.getElem?_eq_some_iff.1 hi).1
    have hg : (getSlices ps ax)[i]? = some (getSlices ps ax)[i] := List.getElem?_eq_getElem hi'
    have hin := (C22_tiles ps ax t h).inside i _ hg l (by rw [← part_of_get hg]; exact hl)
    rw [← part_of_get hg] at hin
    rw [← asStrided_get ha hf hin, coefficient, hsh, bindex_self (by rw [inShape_aligned]; exact hin), aligned_aligned]
  have hlen := hf.eq_of_length
  rw [aligned_length, aligned_length] at hlen
  have hup := h.upper
  rw [ruleBlock_eq]
  cases b with
  | scalar => exact hsl ax h (fun _ _ => rfl) rfl
  | disabled => exact hsl ax h (fun _ _ => rfl) rfl
  | rightward =>
    simp only [decision]
    split
    · next e =>
      split at e
      · cases e
      · cases e
    · next e =>
      split at e
      · next hp =>
        refine ⟨_, rfl, replicated_pieces _ _ h hf (by decide) ?_⟩
        simp only [if_true, pyIndex, if_pos h0, Strided.toData]
        omega
      · cases e
    · next ax' e =>
      split at e
      · cases e
      · cases e
        exact hsl ax h (fun _ _ => rfl) rfl
  | leftward =>
    simp only [decision]
    split
    · next e =>
      split at e
      · cases e
      · cases e
    · next e =>
      split at e
      · next hp =>
        refine ⟨_, rfl, replicated_pieces _ _ h hf (by decide) ?_⟩
        simp only [reduceCtorEq, if_false, pyIndex, if_pos h0, Strided.toData]
        omega
      · cases e
    · next ax' e =>
      split at e
      · cases e
      · cases e
        obtain ⟨h1, h2⟩ := shift_fits h h0
        exact hsl _ h1 (shift_item _ _) h2

/-- C81: if the length of a block is not known, no exception is raised (unless the operator is a homothety whose shape is known). -/
theorem C81_unresolved (strict : Bool) (a : Strided R) (b : Kind) (shape : Option Shape) {ps : List (Option Nat)} (ax : Axis)
    (hn : none ∈ ps) (hb : b = .scalar → shape = none) : ruleBlock strict a b shape (some ps) ax ≠ .error := by
  have e : ps.any Option.isNone = true := List.any_eq_true.2 ⟨none, hn, rfl⟩
  simp only [ruleBlock, e, Bool.true_and]
  by_cases h : b = .scalar
  · rw [h, hb h]; simp [decision]
  · simp [h]

/-- A block column whose second block has an unknown length. -/
example : (none : Option Nat) ∈ [some 2, none] ∧ (Kind.leftward = .scalar → (some [2] : Option Shape) = none) := ⟨by decide, by decide⟩

/-- C81 (partial): the shape of the array is not known.  The rule is right, or is not applied, for the arrays of any shape t that the operators
accept, if the data are not of length one along the axis of the blocks (unless the array is), the blocks are not scalars, and the axis does
not follow the last one of data that are broadcast rightward. -/
theorem C81_unknown_partial (strict : Bool) (a : Strided R) (b : Kind) (hv : ValidKind a.shape b) {t : Shape}
    (hc : Compatible a.shape b t) {ps : List Nat} {ax : Axis} (h : Block.Fits ps ax t)
    (hs : strict = true → (∀ d ∈ t, 0 < d) ∧ ∀ p ∈ ps, 0 < p)
    (hd : ∀ d, dimensionAt a.shape b t (pyIndex t.length ax.pos) = some d → d = ps.sum)
    (hx : ∀ x, ax = .newAxis x → t.length ≠ 1) (hr : b = .rightward → ax.pos ≠ a.shape.length) :
    (ruleBlock strict a b none (some (ps.map some)) ax).Holds fun ds => IsPieces a.toData b t (getSlices ps ax) ds := by
  have hf := hc.fits
  have hlen := hf.eq_of_length
  rw [aligned_length, aligned_length] at hlen
  have hs' : strict = true → (∀ d ∈ a.shape, 0 < d) ∧ ∀ p ∈ ps, 0 < p := by
    intro e
    refine ⟨fun d hd => fits_pos hf (fun x hx => (hs e).1 x ((aligned_mem b t x).1 hx)) d ((aligned_mem b _ d).2 hd), (hs e).2⟩
  have hup := h.upper
  have hlo := h.lower
  have hsl : Block.Fits ps ax a.shape →
      (if b = .rightward then pyIndex a.shape.length ax.pos = pyIndex t.length ax.pos
        else a.shape.length - pyIndex a.shape.length ax.pos - 1 = t.length - pyIndex t.length ax.pos - 1) →
      (sliced strict (a.asStrided b none).toData b ps ax).Holds fun ds => IsPieces a.toData b t (getSlices ps ax) ds := by
    intro h' hp
    have e : (a.asStrided b none).toData = a.toData := rfl
    rw [e, sliced_result strict a.toData b h' hs']
    exact sliced_pieces a.toData b h h' (fun _ _ => rfl) hc hp
  rw [ruleBlock_eq]
  cases b with
  | scalar =>
    refine replicated_pieces _ _ h hf (by decide) ?_
    simp [Strided.toData, hv rfl]
  | disabled =>
    have hc' : a.shape = t := by simpa [Compatible] using hc
    exact hsl (by rw [hc']; exact h) (by rw [hc']; simp)
  | rightward =>
    have hr := hr rfl
    simp only [decision]
    split
    · trivial
    · next e =>
      refine replicated_pieces _ _ h hf (by decide) ?_
      simp only [if_true, Strided.toData]
      split at e
      · next hp =>
        have := hx _ hp.2
        rw [hp.2] at hlo ⊢
        rw [hp.1]
        simp only [Axis.pos] at hlo ⊢
        simp only [pyIndex]
        rw [if_neg (by omega)]
        omega
      · split at e
        · simp only [pyIndex]; split <;> omega
        · split at e <;> cases e
    · next ax' e =>
      split at e
      · cases e
      · split at e
        · cases e
        · split at e
          · cases e
          · next h1 h2 h3 =>
            cases e
            have e1 : pyIndex a.shape.length ax.pos = pyIndex t.length ax.pos := by
              simp only [pyIndex, if_pos (show 0 ≤ ax.pos by omega)]
            have hlt : pyIndex t.length ax.pos < a.shape.length := by
              simp only [pyIndex, if_pos (show 0 ≤ ax.pos by omega)]; omega
            refine hsl ⟨by omega, by omega, ?_, h.ones⟩ (by simpa using e1)
            rw [e1, List.getElem?_eq_getElem hlt]
            congr 1
            apply hd
            simp only [dimensionAt, aligned, if_true]
            exact List.getElem?_eq_getElem hlt
  | leftward =>
    simp only [decision]
    split
    · trivial
    · next e =>
      refine replicated_pieces _ _ h hf (by decide) ?_
      simp only [reduceCtorEq, if_false, Strided.toData]
      split at e
      · next hp =>
        have := hx _ hp.2
        rw [hp.2] at hup ⊢
        rw [hp.1]
        simp only [Axis.pos] at hup ⊢
        simp only [pyIndex]
        rw [if_pos (by omega)]
        omega
      · split at e
        · simp only [pyIndex]; rw [if_neg (by omega)]; omega
        · split at e <;> cases e
    · next ax' e =>
      split at e
      · cases e
      · split at e
        · cases e
        · split at e
          · cases e
          · next h1 h2 h3 =>
            cases e
            have e1 : pyIndex a.shape.length ax.pos = ((a.shape.length : Int) + ax.pos).toNat := by
              simp only [pyIndex, if_neg (show ¬ 0 ≤ ax.pos by omega)]
            have e2 : pyIndex t.length ax.pos = ((t.length : Int) + ax.pos).toNat := by
              simp only [pyIndex, if_neg (show ¬ 0 ≤ ax.pos by omega)]
            have hlt : pyIndex a.shape.length ax.pos < a.shape.length := by omega
            refine hsl ⟨by omega, by omega, ?_, h.ones⟩ (by simp only [reduceCtorEq, if_false]; omega)
            rw [List.getElem?_eq_getElem hlt]
            congr 1
            apply hd
            simp only [dimensionAt, aligned, reduceCtorEq, if_false]
            rw [List.getElem?_reverse (by omega), List.getElem?_eq_some_iff]
            refine ⟨by omega, ?_⟩
            congr 1
            omega

theorem element_acts [Zero R] (f : R → R → R) (data : Data R) (b : Kind) {t : Shape} {idxs : List (List Index)} {ds : List (Data R × Kind)}
    (h : IsPieces data b t idxs ds) : ActsByParts (element f data b) (ds.map fun p => element f p.1 p.2) t idxs := by
  intro i d hi y l hl
  simp only [List.getElem?_map, Option.map_eq_some_iff] at hi
  obtain ⟨p, hp, rfl⟩ := hi
  simp only [element, (h.2 i p hp).2 l hl]
  congr 1
  simp only [view, clip]
  have : inShape (viewShape (expand t.length (idxs.getD i [])) t) l = true := hl
  rw [if_pos this]
  rfl

/-- C81: if the coefficients are distributed as they should be, applying the diagonal (or adding the constant, or multiplying by it) after the
block operator is the same as doing it after the blocks.  The function is the product for a diagonal, and for a constant the sum or the
product. -/
theorem C81_after [Zero R] (f operation : R → R → R) (b : BlockOp R) (data : Data R) (kind : Kind) (ds : List (Data R × Kind))
    (sx sy : Shape) (hw : WellFormed b sx sy) (a : Axis) (hao : b.axisout = some a)
    (hp : IsPieces data kind sy (getSlices b.partitionout a) ds)
    (hs : ∀ (i : Nat) (o : Operand R), b.operands[i]? = some o → o.reshapein (b.inputShape sx i) = b.outputShape sy i)
    (x y w tmp : Nat) (hx : x ≠ y ∧ x ≠ w ∧ tmp ≠ x ∧ tmp ≠ y ∧ tmp ≠ w) (oks : List Bool)
    (hk : oks.length = b.operands.length) (m : Mem R) :
    ∃ m1 m3, b.direct operation sx sy x y tmp oks m = some m1 ∧
      (b.withOperands (List.zipWith comp (ds.map fun p => element f p.1 p.2) b.operands)).direct operation sx sy x w tmp oks m = some m3 ∧
      ∀ k, inShape sy k = true → m3 w k = f (m1 y k) (coefficient data kind k) := by
  refine left_pieces operation b (element f data kind) _ sx sy hw a hao ?_ (element_acts f data kind hp) hs x y w tmp hx oks hk m
  rw [List.length_map, hp.1, slices_length]
  exact (hw.lenout a hao).1

/-- C81: if the coefficients are distributed as they should be, applying the diagonal (or the constant) before the block operator is the same
as doing it before the blocks.  The function is the product for a diagonal, and the second argument for a constant. -/
theorem C81_before [Zero R] (f operation : R → R → R) (b : BlockOp R) (data : Data R) (kind : Kind) (ds : List (Data R × Kind))
    (sx sy : Shape) (hw : WellFormed b sx sy) (a : Axis) (hai : b.axisin = some a)
    (hp : IsPieces data kind sx (getSlices b.partitionin a) ds)
    (x t y w tmp : Nat) (hx : x ≠ w ∧ t ≠ y ∧ tmp ≠ x ∧ tmp ≠ t ∧ tmp ≠ y ∧ tmp ≠ w) (oks : List Bool)
    (hk : oks.length = b.operands.length) (m : Mem R) :
    ∃ m1 m3, b.direct operation sx sy t y tmp oks (m.set t (fun k => f (m x k) (coefficient data kind k))) = some m1 ∧
      (b.withOperands (List.zipWith comp b.operands (ds.map fun p => element f p.1 p.2))).direct operation sx sy x w tmp oks m = some m3 ∧
      ∀ k, inShape sy k = true → m3 w k = m1 y k := by
  refine right_pieces operation b (element f data kind) _ sx sy hw a hai ?_ (element_acts f data kind hp) ?_ x t y w tmp hx oks hk m
  · rw [List.length_map, hp.1, slices_length]
    exact (hw.lenin a hai).1
  · intro d hd s
    obtain ⟨p, -, rfl⟩ := List.mem_map.1 hd
    rfl

/-- C81 (partial): the sum or the product of a diagonal and of a block diagonal operator, with the same axis and partition for its input and its
output. -/
theorem C81_pointwise_partial [Zero R] [Mul R] (f operation : R → R → R) (b : BlockOp R) (data : Data R) (kind : Kind)
    (ds : List (Data R × Kind)) (s : Shape) (a : Axis) (hai : b.axisin = some a) (hao : b.axisout = some a) (hp : b.partitionin = b.partitionout)
    (hw : WellFormed b s s) (hd : IsPieces data kind s (getSlices b.partitionout a) ds)
    (x y w tmp : Nat) (hx : x ≠ y ∧ x ≠ w ∧ tmp ≠ x ∧ tmp ≠ y ∧ tmp ≠ w)
    (oks : List Bool) (hk : oks.length = b.operands.length) (m : Mem R) :
    ∃ m1 m3, b.direct operation s s x y tmp oks m = some m1 ∧
      (b.withOperands (List.zipWith (pointwise f) b.operands (ds.map fun p => element (· * ·) p.1 p.2))).direct operation s s x w tmp oks m =
        some m3 ∧ ∀ k, inShape s k = true → m3 w k = f (m1 y k) (m x k * coefficient data kind k) := by
  have hact := element_acts (· * ·) data kind hd
  generalize hds : ds.map (fun p => element (· * ·) p.1 p.2) = es at hact ⊢
  have hl : es.length = b.operands.length := by
    rw [← hds, List.length_map, hd.1, slices_length]
    exact (hw.lenout a hao).1
  have hzl : (List.zipWith (pointwise f) b.operands es).length = b.operands.length := by simp [hl]
  have hw3 := hw.withOperands _ hzl
  obtain ⟨m1, e1, h1, _⟩ := direct_holds b operation s s hw x y tmp hx.1 hx.2.2.1 hx.2.2.2.1 oks hk m
  obtain ⟨m3, e3, h3, _⟩ := direct_holds _ operation s s hw3 x w tmp hx.2.1 hx.2.2.1 hx.2.2.2.2 oks (by rw [hk]; exact hzl.symm) m
  refine ⟨m1, m3, e1, e3, ?_⟩
  intro k hkk
  obtain ⟨w1, w2⟩ := hw.lenout a hao
  obtain ⟨i, idx, l, hi, hin, rfl⟩ := (C22_tiles _ _ _ w2).cover k hkk
  have hlen := (C22_parts _ _ _ w2).1
  have hilt : i < b.operands.length := by have := (List.getElem?_eq_some_iff.mp hi).1; omega
  have g1 : b.operands[i]? = some b.operands[i] := List.getElem?_eq_getElem hilt
  have g2 : es[i]? = some es[i] := List.getElem?_eq_getElem (by omega)
  have g3 : (List.zipWith (pointwise f) b.operands es)[i]? = some (pointwise f b.operands[i] es[i]) := by
    rw [List.getElem?_zipWith, g1, g2]
  have hpt := part_of_get (s := s) hi
  rw [← hpt]
  have hin' : inShape (partShape s (getSlices b.partitionout a) i) l = true := by rw [partShape, hpt]; exact hin
  rw [hao] at h1
  have ha3 : (b.withOperands (List.zipWith (pointwise f) b.operands es)).axisout = some a := hao
  have hp3 : (b.withOperands (List.zipWith (pointwise f) b.operands es)).partitionout = b.partitionout := by
    simp only [BlockOp.withOperands, hao]
  rw [ha3, hp3] at h3
  rw [h1 i _ (blockResults_get hw (m x) g1) l hin', h3 i _ (blockResults_get hw3 (m x) g3) l hin',
    (withOperands_input b _ s (m x) i).1, (withOperands_input b _ s (m x) i).2]
  simp only [pointwise]
  have := hact i _ g2 (m x) l hin'
  simp only [element] at this
  rw [this]
  simp only [BlockOp.blockInput, BlockOp.inputShape, hai, hp]

/-! ### Counterexamples -/

/-- `np.array([[2, 3]])` -/
def oneRow : Strided Int := Strided.ofData ⟨[1, 2], fun k => k.getD 1 0 + 2⟩

/-- C81: data of length one along the axis of the blocks, for arrays of unknown shape.  The second slice is empty, and the second row of the
array is set to zero. -/
theorem C81_length_fails : ∃ d1 d2, ruleBlock false oneRow .rightward none (some [some 1, some 1]) (.axis 0) =
      .result [(d1, .rightward), (d2, .rightward)] ∧
    ((diagonalOperator id (.nums oneRow.toData) (some .rightward)).call ones22).map Data.flat = some [2, 3, 2, 3] ∧
    ((diagonalOperator id (.nums d1) (some .rightward)).call ⟨[1, 2], fun _ => 1⟩).map Data.flat = some [2, 3] ∧
    ((diagonalOperator id (.nums d2) (some .rightward)).call ⟨[1, 2], fun _ => 1⟩).map Data.flat = some [0, 0] :=
  ⟨_, _, rfl, by decide, by decide, by decide⟩

/-- `np.array([1, 2])` -/
def oneTwo : Strided Int := Strided.ofData ⟨[2], fun k => k.getD 0 0 + 1⟩

/-- C81: data that are broadcast rightward, and blocks along the next axis of arrays of unknown shape.  The rule raises an exception. -/
theorem C81_axis_fails : Compatible oneTwo.shape .rightward [2, 4] ∧ Block.Fits [2, 2] (.axis 1) [2, 4] ∧
    ruleBlock false oneTwo .rightward none (some [some 2, some 2]) (.axis 1) = .error :=
  ⟨by simp [Compatible, oneTwo, Strided.ofData, aligned, Fits], ⟨by decide, by decide, rfl, by simp⟩, rfl⟩

/-- C81: data that are not broadcast, and blocks with implicit shapes.  The operator, which does not accept the arrays of the block operator,
becomes an operator that accepts them. -/
theorem C81_size_fails : ∃ d1 d2 : Data Int,
    ruleBlock false (Strided.ofData (⟨[6], fun k => k.getD 0 0 + 1⟩ : Data Int)) .disabled none (some [some 2, some 3]) (.axis 0) =
      .result [(d1, .disabled), (d2, .disabled)] ∧ d1.flat = [1, 2] ∧ d2.flat = [3, 4, 5] ∧
    Block.Fits [2, 3] (.axis 0) [5] ∧ ¬ Compatible [6] .disabled [5] :=
  ⟨_, _, rfl, by decide, by decide, ⟨by decide, by decide, rfl, by simp⟩, by simp [Compatible]⟩

/-- C81: blocks that are scalars, for arrays of unknown shape.  The data are replicated, and the blocks do not accept scalars. -/
theorem C81_rank_fails : ∃ d1 d2, ruleBlock false oneTwo .leftward none (some [some 1, some 1]) (.newAxis 0) =
      .result [(d1, .leftward), (d2, .leftward)] ∧ Block.Fits [1, 1] (.newAxis 0) [2] ∧
    ((diagonalOperator id (.nums oneTwo.toData) (some .leftward)).call ⟨[2], fun _ => 1⟩).map Data.flat = some [1, 2] ∧
    (diagonalOperator id (.nums d1) (some .leftward)).call ⟨[], fun _ => 1⟩ = none :=
  ⟨_, _, rfl, ⟨by decide, by decide, rfl, by simp⟩, by decide, rfl⟩

/-- C81: data that are not contiguous, for arrays of known shape.  The coefficients of the first block are those of the first column. -/
theorem C81_strides_fails : ∃ d1 d2, ruleBlock false transposed .disabled (some [2, 2]) (some [some 1, some 1]) (.axis 0) =
      .result [(d1, .disabled), (d2, .disabled)] ∧ Compatible transposed.shape .disabled [2, 2] ∧
    transposed.toData.flat = [1, 3, 2, 4] ∧ d1.flat = [1, 2] ∧ d2.flat = [3, 4] :=
  ⟨_, _, rfl, by simp [Compatible, transposed], by decide, by decide, by decide⟩

/-- `np.array(2)` -/
def two : Strided Int := Strided.ofData ⟨[], fun _ => 2⟩

/-- C81: a homothety, and an empty block of a block operator whose shape is known.  The rule raises an exception. -/
theorem C81_empty_fails : Compatible two.shape .scalar [2] ∧ Block.Fits [0, 2] (.axis 0) [2] ∧
    ruleBlock true two .scalar (some [2]) (some [some 0, some 2]) (.axis 0) = .error :=
  ⟨by simp [Compatible, two, Strided.ofData, aligned, Fits], ⟨by decide, by decide, rfl, by simp⟩, rfl⟩

/-- The transposition of a matrix with two rows, as a block diagonal operator: `BlockDiagonalOperator([I, I], new_axisin=0, new_axisout=1)`. -/
def transposition : BlockOp Int :=
  { operands := [{ fn := fun _ x => x }, { fn := fun _ x => x }], partitionin := [1, 1], partitionout := [1, 1], axisin := some (.newAxis 0),
    axisout := some (.newAxis 1) }

/-- C81: the sum of a homothety and of a block diagonal operator whose axes are different.  The sum of twice the array and of its
transpose becomes three times the transpose. -/
theorem C81_pointwise_fails : WellFormed transposition [2, 2] [2, 2] ∧ ∃ ds m1 m3,
    ruleBlock true two .scalar (some [2, 2]) (some [some 1, some 1]) (.newAxis 1) = .result ds ∧
    transposition.direct (· + ·) [2, 2] [2, 2] 0 1 3 [true, true] (fun _ k => 2 * k.getD 0 0 + k.getD 1 0) = some m1 ∧
    (transposition.withOperands (List.zipWith (pointwise (· + ·)) transposition.operands (ds.map fun p => element (· * ·) p.1 p.2))).direct
      (· + ·) [2, 2] [2, 2] 0 2 3 [true, true] (fun _ k => 2 * k.getD 0 0 + k.getD 1 0) = some m3 ∧
    m1 1 [0, 1] + m1 0 [0, 1] * 2 = 4 ∧ m3 2 [0, 1] = 6 ∧ m1 1 [1, 0] + m1 0 [1, 0] * 2 = 5 ∧ m3 2 [1, 0] = 3 := by
  refine ⟨⟨by simp [transposition], by simp [transposition], ?_, ?_⟩, _, _, _, rfl, rfl, rfl, rfl, rfl, rfl, rfl⟩
  · rintro a ha; cases ha; exact ⟨rfl, ⟨by decide, by decide, rfl, by simp [transposition]⟩⟩
  · rintro a ha; cases ha; exact ⟨rfl, ⟨by decide, by decide, rfl, by simp [transposition]⟩⟩

/-! ### Examples -/

/-- Hypotheses of C81_known_partial: data [1, 2] broadcast leftward across arrays of shape (3, 2) in two blocks: along the first axis they
are replicated, and along the last one they are sliced. -/
example : oneTwo.Contiguous ∧ Compatible oneTwo.shape .leftward [3, 2] ∧ Block.Fits [1, 2] (.axis 0) [3, 2] ∧
    Block.Fits [1, 1] (.axis 1) [3, 2] ∧
    (∃ d1 d2, ruleBlock true oneTwo .leftward (some [3, 2]) (some [some 1, some 2]) (.axis 0) = .result [(d1, .leftward), (d2, .leftward)] ∧
      d1.flat = [1, 2] ∧ d2.flat = [1, 2]) ∧
    ∃ d1 d2, ruleBlock true oneTwo .leftward (some [3, 2]) (some [some 1, some 1]) (.axis 1) = .result [(d1, .leftward), (d2, .leftward)] ∧
      d1.flat = [1, 1, 1] ∧ d2.flat = [2, 2, 2] :=
  ⟨ofData_contiguous _, by simp [Compatible, oneTwo, Strided.ofData, aligned, Fits], ⟨by decide, by decide, rfl, by simp⟩,
    ⟨by decide, by decide, rfl, by simp⟩, ⟨_, _, rfl, by decide, by decide⟩, _, _, rfl, by decide, by decide⟩

/-- Hypotheses of C81_unknown_partial: data [1, 2] broadcast leftward across arrays of shape (3, 2) in two blocks along the last axis. -/
example : Compatible oneTwo.shape .leftward [3, 2] ∧ Block.Fits [1, 1] (.newAxis (-1)) [3, 2] ∧
    dimensionAt oneTwo.shape .leftward [3, 2] (pyIndex 2 (-1)) = some [1, 1].sum ∧
    ∃ d1 d2, ruleBlock true oneTwo .leftward none (some [some 1, some 1]) (.newAxis (-1)) = .result [(d1, .leftward), (d2, .leftward)] ∧
      d1.flat = [1] ∧ d2.flat = [2] :=
  ⟨by simp [Compatible, oneTwo, Strided.ofData, aligned, Fits], ⟨by decide, by decide, rfl, by simp⟩, rfl, _, _, rfl, by decide, by decide⟩

/-- Hypotheses of C81_after, C81_before and C81_pointwise_partial: the diagonal (1, 2) and a block diagonal operator. -/
example : WellFormed smallDiag [2] [2] ∧ smallDiag.axisin = some (.axis 0) ∧ smallDiag.axisout = some (.axis 0) ∧
    ∃ ds, ruleBlock false oneTwo .disabled (some [2]) (some [some 1, some 1]) (.axis 0) = .result ds ∧
      IsPieces oneTwo.toData .disabled [2] (getSlices smallDiag.partitionout (.axis 0)) ds ∧
      ∃ m3, (smallDiag.withOperands (List.zipWith comp (ds.map fun p => element (· * ·) p.1 p.2) smallDiag.operands)).direct (· + ·) [2] [2] 0 1 2
        [true, true] (fun _ _ => 1) = some m3 ∧ m3 1 [0] = 2 ∧ m3 1 [1] = 4 := by
  obtain ⟨ds, h1, h2⟩ := C81_known_partial false oneTwo (ofData_contiguous _) .disabled (t := [2]) (ps := [1, 1]) (ax := .axis 0)
    (by simp [Compatible, oneTwo, Strided.ofData]) ⟨by decide, by decide, rfl, by simp⟩ (by decide) (by simp)
  refine ⟨⟨by simp [smallDiag], by simp [smallDiag], ?_, ?_⟩, rfl, rfl, ds, h1, h2, ?_⟩
  · rintro a ha; cases ha; exact ⟨rfl, ⟨by decide, by decide, rfl, by simp⟩⟩
  · rintro a ha; cases ha; exact ⟨rfl, ⟨by decide, by decide, rfl, by simp⟩⟩
  · have h3 : ruleBlock false oneTwo .disabled (some [2]) (some [some 1, some 1]) (.axis 0) = .result _ := rfl
    obtain rfl := Outcome.result.inj (h1.symm.trans h3)
    exact ⟨_, rfl, rfl, rfl⟩

end Verif.Broadcast
