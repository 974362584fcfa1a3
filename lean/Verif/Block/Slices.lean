import Verif.Block.Model
import Mathlib.Data.List.GetD
import Mathlib.Tactic.Tauto
import Mathlib.Algebra.BigOperators.Group.List.Basic

/- Property C22: the slices of a block operator tile its input (or its output). -/

namespace Verif.Block

open Verif.Shape

/-! ### Shapes and multi-indices -/

theorem inShape_length {s : Shape} {k : MIndex} (h : inShape s k = true) : k.length = s.length := by
  induction s generalizing k with
  | nil => cases k <;> simp [inShape] at h ⊢
  | cons d s ih =>
    cases k with
    | nil => simp [inShape] at h
    | cons i k =>
      simp only [inShape, Bool.and_eq_true] at h
      simp [ih h.2]

theorem inShape_append {s s' : Shape} {k k' : MIndex} (h : k.length = s.length) :
    inShape (s ++ s') (k ++ k') = (inShape s k && inShape s' k') := by
  induction s generalizing k with
  | nil =>
    cases k with
    | nil => simp [inShape]
    | cons _ _ => simp at h
  | cons d s ih =>
    cases k with
    | nil => simp at h
    | cons i k =>
      simp only [List.cons_append, inShape, ih (by simpa using h), Bool.and_assoc]

theorem inShape_split {s s' : Shape} {d : Nat} {k : MIndex} (h : inShape (s ++ d :: s') k = true) :
    ∃ k1 i k2, k = k1 ++ i :: k2 ∧ k1.length = s.length ∧ inShape s k1 = true ∧ i < d ∧ inShape s' k2 = true := by
  have hl := inShape_length h
  simp only [List.length_append, List.length_cons] at hl
  have hk : k = k.take s.length ++ k.drop s.length := (List.take_append_drop _ _).symm
  have hlt : (k.take s.length).length = s.length := by simp; omega
  cases hd : k.drop s.length with
  | nil =>
    have := congrArg List.length hd
    simp at this
    omega
  | cons i k2 =>
    rw [hd] at hk
    rw [hk, inShape_append hlt] at h
    simp only [inShape, Bool.and_eq_true, decide_eq_true_eq] at h
    exact ⟨_, i, k2, hk, hlt, h.1, h.2.1, h.2.2⟩

theorem inShape_split' {s s' : Shape} {k : MIndex} (h : inShape (s ++ s') k = true) :
    ∃ k1 k2, k = k1 ++ k2 ∧ k1.length = s.length ∧ inShape s k1 = true ∧ inShape s' k2 = true := by
  have hl := inShape_length h
  simp only [List.length_append] at hl
  have hk : k = k.take s.length ++ k.drop s.length := (List.take_append_drop _ _).symm
  have hlt : (k.take s.length).length = s.length := by simp; omega
  rw [hk, inShape_append hlt] at h
  simp only [Bool.and_eq_true] at h
  exact ⟨_, _, hk, hlt, h.1, h.2⟩

/-! ### The slices -/

/-- An index without ellipsis that selects along one axis. -/
def along (a b : Nat) (it : Index) : List Index := List.replicate a .all ++ it :: List.replicate b .all

theorem expand_slice (n : Nat) (p : Int) (it : Index) (hit : it ≠ .ellipsis) (h1 : -(n : Int) ≤ p) (h2 : p < n) :
    expand n ((template p).set (pyIndex (template p).length p) it) = along (pyIndex n p) (n - pyIndex n p - 1) it := by
  have hall : ∀ m q, (List.replicate m Index.all).flatMap (expandItem q) = List.replicate m Index.all := by
    intro m q
    induction m with
    | zero => rfl
    | succ m ih => rw [List.replicate_succ, List.flatMap_cons, ih]; rfl
  have hitm : ∀ q, expandItem q it = [it] := by
    intro q; cases it <;> first | rfl | exact absurd rfl hit
  by_cases hp : 0 ≤ p
  · obtain ⟨m, rfl⟩ := Int.eq_ofNat_of_zero_le hp
    have e : (template (m : Int)).set (pyIndex (template (m : Int)).length m) it =
        List.replicate m Index.all ++ it :: [Index.ellipsis] := by
      simp only [template, pyIndex, hp, if_true, Int.toNat_natCast, List.replicate_succ', List.append_assoc]
      rw [List.set_append_right _ _ (by simp)]
      simp
    rw [e]
    unfold expand
    simp only [List.flatMap_append, List.flatMap_cons, List.flatMap_nil, List.append_nil, hall, expandItem]
    simp only [along, pyIndex, hp, if_true, Int.toNat_natCast, List.length_append, List.length_replicate, List.length_cons,
      List.length_nil, List.cons_append, List.nil_append]
    congr 3
  · have hneg : ∃ m : Nat, p = -((m : Int) + 1) := ⟨(-p - 1).toNat, by omega⟩
    obtain ⟨m, rfl⟩ := hneg
    have e : (template (-((m : Int) + 1))).set (pyIndex (template (-((m : Int) + 1))).length (-((m : Int) + 1))) it =
        .ellipsis :: it :: List.replicate m Index.all := by
      have e1 : (-(-((m : Int) + 1))).toNat = m + 1 := by omega
      simp only [template, pyIndex, hp, if_false, e1, List.length_cons, List.length_replicate]
      have e2 : (((m + 1 + 1 : Nat) : Int) + -((m : Int) + 1)).toNat = 1 := by omega
      rw [e2, List.replicate_succ]
      rfl
    rw [e]
    unfold expand
    simp only [List.flatMap_cons, hall, expandItem]
    simp only [along, pyIndex, hp, if_false, List.length_replicate, List.length_cons, List.cons_append, List.nil_append]
    congr 1
    · congr 1; omega
    · congr 2; omega

theorem slices_get (ax : Axis) (s : List Index) (dest : Nat) (ps : List Nat) (i : Nat) :
    (slicesFrom ax s dest ps)[i]? =
      ps[i]?.map (fun n => s.set (pyIndex s.length ax.pos) (ax.item (dest + (ps.take i).sum) n)) := by
  induction ps generalizing s dest i with
  | nil => simp [slicesFrom]
  | cons n ps ih =>
    cases i with
    | zero => simp [slicesFrom]
    | succ i =>
      simp only [slicesFrom, List.getElem?_cons_succ]
      rw [ih]
      simp only [List.length_set, List.set_set, List.take_succ_cons, List.sum_cons, Nat.add_assoc]

theorem along_range_shape (s s' : Shape) (d a b : Nat) :
    viewShape (along s.length s'.length (.range a b)) (s ++ d :: s') = s ++ (min b d - min a d) :: s' := by
  unfold along
  induction s with
  | nil =>
    simp only [List.length_nil, List.replicate_zero, List.nil_append, viewShape]
    congr 1
    induction s' with
    | nil => rfl
    | cons e s' ih => simp [List.replicate_succ, viewShape, ih]
  | cons e s ih => simp only [List.length_cons, List.replicate_succ, List.cons_append, viewShape, ih]

theorem along_at_shape (s s' : Shape) (d a : Nat) :
    viewShape (along s.length s'.length (.at a)) (s ++ d :: s') = s ++ s' := by
  unfold along
  induction s with
  | nil =>
    simp only [List.length_nil, List.replicate_zero, List.nil_append, viewShape]
    induction s' with
    | nil => rfl
    | cons e s' ih => simp [List.replicate_succ, viewShape, ih]
  | cons e s ih => simp only [List.length_cons, List.replicate_succ, List.cons_append, viewShape, ih]

theorem place_all (n : Nat) (l : MIndex) : place (List.replicate n .all) l = l := by
  induction n generalizing l with
  | zero => cases l <;> rfl
  | succ n ih =>
    cases l with
    | nil => rfl
    | cons i l => simp [List.replicate_succ, place, ih]

theorem unplace_all (n : Nat) (l : MIndex) : unplace (List.replicate n .all) l = some l := by
  induction n generalizing l with
  | zero => cases l <;> rfl
  | succ n ih =>
    cases l with
    | nil => rfl
    | cons i l => simp [List.replicate_succ, unplace, ih]

theorem along_range_place (n n' a b i : Nat) (l l' : MIndex) (h : l.length = n) :
    place (along n n' (.range a b)) (l ++ i :: l') = l ++ (a + i) :: l' := by
  subst h
  unfold along
  induction l with
  | nil => simp [place, place_all]
  | cons e l ih => simp only [List.length_cons, List.replicate_succ, List.cons_append, place, ih]

theorem along_at_place (n n' a : Nat) (l l' : MIndex) (h : l.length = n) :
    place (along n n' (.at a)) (l ++ l') = l ++ a :: l' := by
  subst h
  unfold along
  induction l with
  | nil => simp [place, place_all]
  | cons e l ih => simp only [List.length_cons, List.replicate_succ, List.cons_append, place, ih]

theorem along_range_unplace (n n' a b i : Nat) (l l' : MIndex) (h : l.length = n) :
    unplace (along n n' (.range a b)) (l ++ i :: l') = if a ≤ i ∧ i < b then some (l ++ (i - a) :: l') else none := by
  subst h
  unfold along
  induction l with
  | nil => simp [unplace, unplace_all]
  | cons e l ih =>
    simp only [List.length_cons, List.replicate_succ, List.cons_append, unplace, ih]
    split <;> simp

theorem along_at_unplace (n n' a i : Nat) (l l' : MIndex) (h : l.length = n) :
    unplace (along n n' (.at a)) (l ++ i :: l') = if i = a then some (l ++ l') else none := by
  subst h
  unfold along
  induction l with
  | nil => simp [unplace, unplace_all]
  | cons e l ih =>
    simp only [List.length_cons, List.replicate_succ, List.cons_append, unplace, ih]
    split <;> simp

/-- The indices tile an array: their elements are in the array, and any element of the array is in exactly one of them, once. -/
structure Tiles (s : Shape) (idxs : List (List Index)) : Prop where
  inside : ∀ (i : Nat) (idx : List Index), idxs[i]? = some idx → ∀ l, inShape (viewShape (expand s.length idx) s) l = true →
    inShape s (place (expand s.length idx) l) = true
  cover : ∀ k, inShape s k = true → ∃ (i : Nat) (idx : List Index) (l : MIndex), idxs[i]? = some idx ∧
    inShape (viewShape (expand s.length idx) s) l = true ∧ place (expand s.length idx) l = k
  once : ∀ (i j : Nat) (idx jdx : List Index), idxs[i]? = some idx → idxs[j]? = some jdx → ∀ l l',
    inShape (viewShape (expand s.length idx) s) l = true → inShape (viewShape (expand s.length jdx) s) l' = true →
    place (expand s.length idx) l = place (expand s.length jdx) l' → i = j ∧ l = l'
  found : ∀ (i : Nat) (idx : List Index), idxs[i]? = some idx → ∀ k, inShape s k = true → ∀ l,
    unplace (expand s.length idx) k = some l ↔
      inShape (viewShape (expand s.length idx) s) l = true ∧ place (expand s.length idx) l = k

/-- The partition fits the axis of an array: the axis exists, its length is the sum of the partition, and the partition of a new axis
is made of ones. -/
structure Fits (ps : List Nat) (ax : Axis) (s : Shape) : Prop where
  lower : -(s.length : Int) ≤ ax.pos
  upper : ax.pos < s.length
  total : s[pyIndex s.length ax.pos]? = some ps.sum
  ones : ∀ a, ax = .newAxis a → ∀ p ∈ ps, p = 1

theorem Fits.split {ps : List Nat} {ax : Axis} {s : Shape} (h : Fits ps ax s) :
    ∃ s1 s2, s = s1 ++ ps.sum :: s2 ∧ s1.length = pyIndex s.length ax.pos ∧ s2.length = s.length - pyIndex s.length ax.pos - 1 := by
  obtain ⟨hlt, he⟩ := List.getElem?_eq_some_iff.mp h.total
  refine ⟨s.take (pyIndex s.length ax.pos), s.drop (pyIndex s.length ax.pos + 1), ?_, ?_, ?_⟩
  · rw [← he]
    simp
  · simp; omega
  · simp; omega

/-- Position of a point of a line in a partition of the line. -/
theorem locate (ps : List Nat) (i : Nat) (h : i < ps.sum) : ∃ (j : Nat) (n : Nat), ps[j]? = some n ∧
    (ps.take j).sum ≤ i ∧ i < (ps.take j).sum + n := by
  induction ps generalizing i with
  | nil => simp at h
  | cons p ps ih =>
    by_cases hp : i < p
    · exact ⟨0, p, rfl, by simp, by simpa using hp⟩
    · obtain ⟨j, n, h1, h2, h3⟩ := ih (i - p) (by simp at h; omega)
      exact ⟨j + 1, n, by simpa using h1, by simp; omega, by simp; omega⟩

theorem take_sum_mono (ps : List Nat) {i j : Nat} (h : i < j) {n : Nat} (hn : ps[i]? = some n) :
    (ps.take i).sum + n ≤ (ps.take j).sum := by
  induction ps generalizing i j with
  | nil => simp at hn
  | cons p ps ih =>
    cases j with
    | zero => omega
    | succ j =>
      cases i with
      | zero => simp at hn; subst hn; simp
      | succ i =>
        have := ih (i := i) (j := j) (by omega) (by simpa using hn)
        simp; omega

theorem take_sum_le (ps : List Nat) {i n : Nat} (hn : ps[i]? = some n) : (ps.take i).sum + n ≤ ps.sum := by
  have := take_sum_mono ps (j := ps.length) (List.getElem?_eq_some_iff.mp hn).1 hn
  simpa using this

theorem locate_unique (ps : List Nat) {i j n m x : Nat} (hi : ps[i]? = some n) (hj : ps[j]? = some m)
    (h1 : (ps.take i).sum ≤ x) (h2 : x < (ps.take i).sum + n) (h3 : (ps.take j).sum ≤ x) (h4 : x < (ps.take j).sum + m) :
    i = j := by
  rcases Nat.lt_trichotomy i j with h | h | h
  · have := take_sum_mono ps h hi; omega
  · exact h
  · have := take_sum_mono ps h hj; omega

theorem item_ne (ax : Axis) (a b : Nat) : ax.item a b ≠ .ellipsis := by cases ax <;> simp [Axis.item]

theorem slice_along {ps : List Nat} {ax : Axis} {s : Shape} (h : Fits ps ax s) {i : Nat} {idx : List Index}
    (hi : (getSlices ps ax)[i]? = some idx) : ∃ n, ps[i]? = some n ∧
      expand s.length idx = along (pyIndex s.length ax.pos) (s.length - pyIndex s.length ax.pos - 1)
        (ax.item (ps.take i).sum n) := by
  unfold getSlices at hi
  rw [slices_get] at hi
  rw [Option.map_eq_some_iff] at hi
  obtain ⟨n, h1, h2⟩ := hi
  refine ⟨n, h1, ?_⟩
  rw [← h2, expand_slice s.length ax.pos _ (item_ne ax _ _) h.lower h.upper, Nat.zero_add]

/-- C22.  The slices of a partition tile the array, along an existing axis or along a new one. -/
theorem C22_tiles (ps : List Nat) (ax : Axis) (s : Shape) (h : Fits ps ax s) : Tiles s (getSlices ps ax) := by
  obtain ⟨s1, s2, hs, e1, e2⟩ := h.split
  -- one slice
  have hslice : ∀ (i : Nat) (idx : List Index), (getSlices ps ax)[i]? = some idx → ∃ n, ps[i]? = some n ∧
      expand s.length idx = along s1.length s2.length (ax.item (ps.take i).sum n) := by
    intro i idx hi
    obtain ⟨n, h1, h2⟩ := slice_along h hi
    exact ⟨n, h1, by rw [h2, e1, e2]⟩
  have hget : ∀ (i n : Nat), ps[i]? = some n → ∃ idx, (getSlices ps ax)[i]? = some idx := by
    intro i n hi
    unfold getSlices
    rw [slices_get, hi]
    exact ⟨_, rfl⟩
  cases hax : ax with
  | axis a =>
    simp only [hax, Axis.item] at hslice
    have hvs : ∀ i n, ps[i]? = some n →
        viewShape (along s1.length s2.length (.range (ps.take i).sum ((ps.take i).sum + n))) s = s1 ++ n :: s2 := by
      intro i n hn
      have := take_sum_le ps hn
      rw [hs, along_range_shape, Nat.min_eq_left this, Nat.min_eq_left (by omega)]
      congr 2; omega
    rw [hax] at hget
    constructor
    · intro i idx hi l hl
      obtain ⟨n, h1, h2⟩ := hslice i idx hi
      rw [h2] at hl ⊢
      rw [hvs i n h1] at hl
      obtain ⟨l1, j, l2, rfl, hl1, hin1, hj, hin2⟩ := inShape_split hl
      rw [along_range_place _ _ _ _ _ _ _ hl1, hs, inShape_append hl1]
      have := take_sum_le ps h1
      simp only [inShape, hin1, hin2, Bool.and_true, Bool.true_and, decide_eq_true_eq]
      omega
    · intro k hk
      rw [hs] at hk
      obtain ⟨k1, j, k2, rfl, hk1, hin1, hj, hin2⟩ := inShape_split hk
      obtain ⟨i, n, g1, g2, g3⟩ := locate ps j hj
      obtain ⟨idx, hidx⟩ := hget i n g1
      obtain ⟨n', h1, h2⟩ := hslice i idx hidx
      rw [g1] at h1; cases h1
      refine ⟨i, idx, k1 ++ (j - (ps.take i).sum) :: k2, hidx, ?_, ?_⟩
      · rw [h2, hvs i n g1, inShape_append hk1]
        simp only [inShape, hin1, hin2, Bool.and_true, Bool.true_and, decide_eq_true_eq]
        omega
      · rw [h2, along_range_place _ _ _ _ _ _ _ hk1]
        congr 2; omega
    · intro i j idx jdx hi hj l l' hl hl' hp
      obtain ⟨n, h1, h2⟩ := hslice i idx hi
      obtain ⟨m, g1, g2⟩ := hslice j jdx hj
      rw [h2] at hl hp
      rw [g2] at hl' hp
      rw [hvs i n h1] at hl
      rw [hvs j m g1] at hl'
      obtain ⟨l1, p, l2, rfl, hl1, _, hp1, _⟩ := inShape_split hl
      obtain ⟨l1', p', l2', rfl, hl1', _, hp1', _⟩ := inShape_split hl'
      rw [along_range_place _ _ _ _ _ _ _ hl1, along_range_place _ _ _ _ _ _ _ hl1'] at hp
      obtain ⟨q1, q2⟩ := List.append_inj hp (hl1.trans hl1'.symm)
      simp only [List.cons.injEq] at q2
      have hij : i = j := locate_unique ps (x := (ps.take i).sum + p) h1 g1 (by omega) (by omega) (by omega) (by omega)
      subst hij
      refine ⟨rfl, ?_⟩
      rw [q1, q2.2]
      congr 2; omega
    · intro i idx hi k hk l
      obtain ⟨n, h1, h2⟩ := hslice i idx hi
      rw [hs] at hk
      obtain ⟨k1, j, k2, rfl, hk1, hin1, hj, hin2⟩ := inShape_split hk
      rw [h2, hvs i n h1, along_range_unplace _ _ _ _ _ _ _ hk1]
      constructor
      · intro hu
        split at hu
        · rename_i hc
          cases hu
          refine ⟨?_, ?_⟩
          · rw [inShape_append hk1]
            simp only [inShape, hin1, hin2, Bool.and_true, Bool.true_and, decide_eq_true_eq]
            omega
          · rw [along_range_place _ _ _ _ _ _ _ hk1]
            congr 2; omega
        · cases hu
      · rintro ⟨hl, hp⟩
        obtain ⟨l1, p, l2, rfl, hl1, _, hp1, _⟩ := inShape_split hl
        rw [along_range_place _ _ _ _ _ _ _ hl1] at hp
        obtain ⟨q1, q2⟩ := List.append_inj hp (hl1.trans hk1.symm)
        simp only [List.cons.injEq] at q2
        rw [if_pos (by omega), q1, q2.2]
        congr 3; omega
  | newAxis a =>
    simp only [hax, Axis.item] at hslice
    have hone := h.ones a hax
    have hsum : ∀ i n, ps[i]? = some n → (ps.take i).sum = i ∧ n = 1 ∧ i < ps.sum := by
      intro i n hn
      have hlt := (List.getElem?_eq_some_iff.mp hn).1
      have h1 : ∀ q : List Nat, (∀ p ∈ q, p = 1) → q.sum = q.length := by
        intro q hq
        induction q with
        | nil => rfl
        | cons x q ih => simp [hq x (by simp), ih (fun p hp => hq p (by simp [hp]))]; omega
      refine ⟨?_, hone n (List.mem_of_getElem? hn), ?_⟩
      · rw [h1 _ (fun p hp => hone p (List.mem_of_mem_take hp))]
        simp; omega
      · rw [h1 _ hone]; exact hlt
    have hvs : ∀ i, viewShape (along s1.length s2.length (.at i)) s = s1 ++ s2 := by
      intro i
      rw [hs, along_at_shape]
    rw [hax] at hget
    have hslice' : ∀ (i : Nat) (idx : List Index), (getSlices ps (.newAxis a))[i]? = some idx →
        expand s.length idx = along s1.length s2.length (.at i) ∧ i < ps.sum := by
      intro i idx hi
      obtain ⟨n, h1, h2⟩ := hslice i idx hi
      obtain ⟨g1, _, g3⟩ := hsum i n h1
      exact ⟨by rw [h2, g1], g3⟩
    constructor
    · intro i idx hi l hl
      obtain ⟨h2, hlt⟩ := hslice' i idx hi
      rw [h2] at hl ⊢
      rw [hvs] at hl
      obtain ⟨l1, l2, rfl, hl1, hin1, hin2⟩ := inShape_split' hl
      rw [along_at_place _ _ _ _ _ hl1, hs, inShape_append hl1]
      simp only [inShape, hin1, hin2, Bool.and_true, Bool.true_and, decide_eq_true_eq]
      exact hlt
    · intro k hk
      rw [hs] at hk
      obtain ⟨k1, j, k2, rfl, hk1, hin1, hj, hin2⟩ := inShape_split hk
      have hlen : ps.sum = ps.length := by
        clear hget hslice hslice' hsum hvs e1 e2 h hj hk hs
        induction ps with
        | nil => rfl
        | cons x q ih => simp [hone x (by simp), ih (fun p hp => hone p (by simp [hp]))]; omega
      have hj' : j < ps.length := by omega
      obtain ⟨idx, hidx⟩ := hget j ps[j] (List.getElem?_eq_getElem hj')
      obtain ⟨h2, _⟩ := hslice' j idx hidx
      refine ⟨j, idx, k1 ++ k2, hidx, ?_, ?_⟩
      · rw [h2, hvs, inShape_append hk1]
        simp [hin1, hin2]
      · rw [h2, along_at_place _ _ _ _ _ hk1]
    · intro i j idx jdx hi hj l l' hl hl' hp
      obtain ⟨h2, _⟩ := hslice' i idx hi
      obtain ⟨g2, _⟩ := hslice' j jdx hj
      rw [h2] at hl hp
      rw [g2] at hl' hp
      rw [hvs] at hl hl'
      obtain ⟨l1, l2, rfl, hl1, _, _⟩ := inShape_split' hl
      obtain ⟨l1', l2', rfl, hl1', _, _⟩ := inShape_split' hl'
      rw [along_at_place _ _ _ _ _ hl1, along_at_place _ _ _ _ _ hl1'] at hp
      obtain ⟨q1, q2⟩ := List.append_inj hp (hl1.trans hl1'.symm)
      simp only [List.cons.injEq] at q2
      exact ⟨q2.1, by rw [q1, q2.2]⟩
    · intro i idx hi k hk l
      obtain ⟨h2, _⟩ := hslice' i idx hi
      rw [hs] at hk
      obtain ⟨k1, j, k2, rfl, hk1, hin1, hj, hin2⟩ := inShape_split hk
      rw [h2, hvs, along_at_unplace _ _ _ _ _ _ hk1]
      constructor
      · intro hu
        split at hu
        · rename_i hc
          cases hu
          refine ⟨?_, ?_⟩
          · rw [inShape_append hk1]
            simp [hin1, hin2]
          · rw [along_at_place _ _ _ _ _ hk1, hc]
        · cases hu
      · rintro ⟨hl, hp⟩
        obtain ⟨l1, l2, rfl, hl1, _, _⟩ := inShape_split' hl
        rw [along_at_place _ _ _ _ _ hl1] at hp
        obtain ⟨q1, q2⟩ := List.append_inj hp (hl1.trans hk1.symm)
        simp only [List.cons.injEq] at q2
        rw [if_pos q2.1.symm, q1, q2.2]

/-- C22.  The number of slices is the number of blocks, and the shape of each part is the one of the array, whose dimension along the
axis is the one of the block, or which has one dimension less for a new axis. -/
theorem C22_parts (ps : List Nat) (ax : Axis) (s : Shape) (h : Fits ps ax s) :
    (getSlices ps ax).length = ps.length ∧
    ∀ (i : Nat) (idx : List Index), (getSlices ps ax)[i]? = some idx → ∃ n, ps[i]? = some n ∧
      viewShape (expand s.length idx) s =
        match ax with
        | .axis a => s.set (pyIndex s.length a) n
        | .newAxis a => s.eraseIdx (pyIndex s.length a) := by
  refine ⟨?_, ?_⟩
  · unfold getSlices
    generalize template ax.pos = t
    generalize 0 = d
    induction ps generalizing t d with
    | nil => rfl
    | cons p ps ih =>
      simp only [slicesFrom, List.length_cons]
      congr 1
      have : ∀ (q : List Nat) t d, (slicesFrom ax t d q).length = q.length := by
        intro q
        induction q with
        | nil => intros; rfl
        | cons x q ih => intro t d; simp [slicesFrom, ih]
      exact this _ _ _
  · intro i idx hi
    obtain ⟨n, h1, h2⟩ := slice_along h hi
    obtain ⟨s1, s2, hs, e1, e2⟩ := h.split
    refine ⟨n, h1, ?_⟩
    rw [h2, ← e2, ← e1]
    cases ax with
    | axis a =>
      have := take_sum_le ps h1
      have e3 : s1.length = pyIndex s.length a := e1
      simp only [Axis.item]
      rw [← e3, hs, along_range_shape, Nat.min_eq_left this, Nat.min_eq_left (by omega)]
      simp
    | newAxis a =>
      have e3 : s1.length = pyIndex s.length a := e1
      simp only [Axis.item]
      rw [← e3, hs, along_at_shape]
      simp [List.eraseIdx_append_of_length_le]

/-- The parts of an array are written one after the other in another array. -/
def scatter {R : Type} (s : Shape) : List (List Index) → List (Arr R) → Arr R → Arr R
  | idx :: idxs, v :: vs, y => scatter s idxs vs (write s idx v y)
  | _, _, y => y

theorem scatter_keep {R : Type} (s : Shape) (idxs : List (List Index)) (vs : List (Arr R)) (y : Arr R) (k : MIndex)
    (h : ∀ idx ∈ idxs, unplace (expand s.length idx) k = none) : scatter s idxs vs y k = y k := by
  induction idxs generalizing vs y with
  | nil => cases vs <;> rfl
  | cons idx idxs ih =>
    cases vs with
    | nil => rfl
    | cons v vs =>
      simp only [scatter]
      rw [ih _ _ (fun j hj => h j (by simp [hj]))]
      simp [write, h idx (by simp)]

/-- The value of an array after the parts have been written. -/
theorem scatter_get {R : Type} (s : Shape) (idxs : List (List Index)) (vs : List (Arr R)) (y : Arr R) (ht : Tiles s idxs)
    (i : Nat) (idx : List Index) (v : Arr R) (hi : idxs[i]? = some idx) (hv : vs[i]? = some v) (l : MIndex)
    (hl : inShape (viewShape (expand s.length idx) s) l = true) :
    scatter s idxs vs y (place (expand s.length idx) l) = v l := by
  have hk : inShape s (place (expand s.length idx) l) = true := ht.inside i idx hi l hl
  -- all the other slices do not contain the element
  have hu : unplace (expand s.length idx) (place (expand s.length idx) l) = some l := (ht.found i idx hi _ hk l).mpr ⟨hl, rfl⟩
  have hother : ∀ (j : Nat) (jdx : List Index), idxs[j]? = some jdx → j ≠ i →
      unplace (expand s.length jdx) (place (expand s.length idx) l) = none := by
    intro j jdx hj hne
    cases hc : unplace (expand s.length jdx) (place (expand s.length idx) l) with
    | none => rfl
    | some l' =>
      obtain ⟨c1, c2⟩ := (ht.found j jdx hj _ hk l').mp hc
      exact absurd (ht.once j i jdx idx hj hi l' l c1 hl c2).1 hne
  clear ht
  generalize place (expand s.length idx) l = k at *
  induction idxs generalizing vs y i with
  | nil => simp at hi
  | cons jdx idxs ih =>
    cases vs with
    | nil => simp at hv
    | cons w vs =>
      simp only [scatter]
      cases i with
      | zero =>
        simp only [List.getElem?_cons_zero, Option.some.injEq] at hi hv
        subst hi; subst hv
        rw [scatter_keep]
        · simp [write, hu]
        · intro j hj
          obtain ⟨n, hn⟩ := List.mem_iff_getElem?.mp hj
          exact hother (n + 1) j (by simpa using hn) (by omega)
      | succ i =>
        exact ih vs _ i (by simpa using hi) (by simpa using hv)
          (fun j jdx' hj hne => hother (j + 1) jdx' (by simpa using hj) (by omega))

/-- C22.  Gathering the parts of an array and scattering them in another one is a copy. -/
theorem C22_roundtrip {R : Type} [Zero R] (ps : List Nat) (ax : Axis) (s : Shape) (h : Fits ps ax s) (x y : Arr R) (k : MIndex)
    (hk : inShape s k = true) :
    scatter s (getSlices ps ax) ((getSlices ps ax).map (fun idx => view s idx x)) y k = x k := by
  have ht := C22_tiles ps ax s h
  obtain ⟨i, idx, l, hi, hl, rfl⟩ := ht.cover k hk
  rw [scatter_get s _ _ y ht i idx (view s idx x) hi (by rw [List.getElem?_map, hi]; rfl) l hl]
  simp [view, clip, hl]

/-- The hypotheses of the theorems, for the second to last axis of an array of three dimensions and for a new axis. -/
example : Fits [2, 3] (.axis (-2)) [7, 5, 4] ∧ Fits [1, 1] (.newAxis 0) [2, 3] :=
  ⟨⟨by decide, by decide, rfl, by simp⟩, ⟨by decide, by decide, rfl, by simp⟩⟩

example : getSlices [2, 3] (.axis (-2)) = [[.ellipsis, .range 0 2, .all], [.ellipsis, .range 2 5, .all]] ∧
    getSlices [1, 1] (.newAxis 0) = [[.at 0, .ellipsis], [.at 1, .ellipsis]] := by decide

end Verif.Block
