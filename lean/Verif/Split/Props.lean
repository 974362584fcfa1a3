import Verif.Split.Lemmas
import Mathlib.Data.List.GetD

/-
Properties C01 and C02.
-/

namespace Verif.Split

/-- Specification of a partition of the items `0, …, n-1` in consecutive groups, independent of the way the groups are
computed: the first group starts at 0, each group starts where the previous one stops, the last one stops at `n`, each
item belongs to one and only one group. -/
structure IsPartition (n : Nat) (l : List Slice) : Prop where
  nonempty : 0 < l.length
  first : ∀ h : 0 < l.length, l[0].start = 0
  chained : ∀ k, ∀ h : k + 1 < l.length, l[k + 1].start = l[k].stop
  last : ∀ h : l.length - 1 < l.length, l[l.length - 1].stop = n
  ordered : ∀ k, ∀ h : k < l.length, l[k].start ≤ l[k].stop
  item : ∀ i, i < n → ∃ k, ∃ h : k < l.length, (l[k].start ≤ i ∧ i < l[k].stop) ∧
    ∀ k', ∀ h' : k' < l.length, (l[k'].start ≤ i ∧ i < l[k'].stop) → k' = k

/-- C01: `split(n, m)` yields `m` slices that partition the items, in order. -/
theorem C01_split_partition (n m : Nat) (hm : 0 < m) :
    (split n m).length = m ∧ IsPartition n (split n m) := by
  rw [split_eq]
  refine ⟨by simp, ?_, ?_, ?_, ?_, ?_, ?_⟩
  · simpa using hm
  · intro h; simp [startOf_zero]
  · intro k h; simp
  · intro h
    have : m - 1 + 1 = m := by omega
    simp [this, startOf_last n m hm]
  · intro k h; simpa using startOf_mono n m (Nat.le_succ k)
  · intro i hi
    obtain ⟨k, hk, h1, h2⟩ := exists_block n m i hm hi
    refine ⟨k, by simpa using hk, by simpa using ⟨h1, h2⟩, ?_⟩
    intro k' h' hh
    simp at hh
    rcases Nat.lt_trichotomy k' k with h | h | h
    · have := startOf_mono n m (show k' + 1 ≤ k by omega); omega
    · exact h
    · have := startOf_mono n m (show k + 1 ≤ k' by omega); omega

example : (split 7 3).length = 3 ∧ IsPartition 7 (split 7 3) := C01_split_partition 7 3 (by decide)
example : split 7 3 = [⟨0, 3⟩, ⟨3, 5⟩, ⟨5, 7⟩] := by decide +kernel

/-- C01: the lengths of the slices differ by at most one and the longer slices come first. -/
theorem C01_split_balanced (n m j k : Nat) (hjk : j ≤ k) (hk : k < m) :
    ∃ sj sk, (split n m)[j]? = some sj ∧ (split n m)[k]? = some sk ∧
      sk.stop - sk.start ≤ sj.stop - sj.start ∧ sj.stop - sj.start ≤ (sk.stop - sk.start) + 1 := by
  rw [split_eq]
  refine ⟨⟨startOf n m j, startOf n m (j + 1)⟩, ⟨startOf n m k, startOf n m (k + 1)⟩, ?_, ?_, ?_⟩
  · have : j < m := by omega
    simp [this]
  · simp [hk]
  · simp only [startOf_succ]
    unfold work
    split <;> split <;> omega

example : ∃ sj sk, (split 7 3)[0]? = some sj ∧ (split 7 3)[2]? = some sk ∧
      sk.stop - sk.start ≤ sj.stop - sj.start ∧ sj.stop - sj.start ≤ (sk.stop - sk.start) + 1 :=
  C01_split_balanced 7 3 0 2 (by decide) (by decide)

/-- C01: `split(n, m, rank)` is the rank-th slice yielded by `split(n, m)`. -/
theorem C01_split_rank (n m rank : Nat) (h : rank < m) :
    splitRank n m rank = (split n m)[rank]? := by
  rw [splitRank_eq n m rank (by omega), split_eq]
  simp [h]

example : splitRank 7 3 1 = (split 7 3)[1]? ∧ splitRank 7 3 1 = some ⟨3, 5⟩ :=
  ⟨C01_split_rank 7 3 1 (by decide), by decide⟩

/-- The shape local to each rank, for all the ranks. -/
def localShapes (shape : List Nat) (size : Nat) : List (Option (List Nat)) :=
  (List.range size).map fun rank => distributeShape shape rank size

/-- C02: `distribute_shape` succeeds on every rank, changes the first dimension only, the first dimensions add up to
the global one; `distribute_shapes` gives the same list; combining the local shapes gives the global shape back. -/
theorem C02_distribute_combine (nglobal : Nat) (rest : List Nat) (size : Nat) (hs : 0 < size) :
    ∃ shapes : List (List Nat),
      localShapes (nglobal :: rest) size = shapes.map some ∧
      distributeShapes (nglobal :: rest) size = some shapes ∧
      shapes.length = size ∧
      (∀ s ∈ shapes, ∃ d, s = d :: rest) ∧
      combineShape shapes = some (nglobal :: rest) := by
  refine ⟨(List.range size).map fun k => work nglobal size k :: rest, ?_, ?_, by simp, ?_, ?_⟩
  · unfold localShapes distributeShape
    rw [List.map_map]
    apply List.map_congr_left
    intro k _
    simp [Nat.pos_iff_ne_zero.mp hs]
  · simp only [distributeShapes, if_neg (show ¬ size = 0 by omega)]
    congr 1
    apply List.ext_getElem
    · simp; have := Nat.mod_lt nglobal hs; omega
    · intro k h1 h2
      have hk : k < size := by simpa using h2
      rw [List.getElem_append]
      simp only [List.length_replicate, List.getElem_replicate, List.getElem_map, List.getElem_range]
      unfold work
      split <;> rfl
  · intro s hs'
    simp only [List.mem_map, List.mem_range] at hs'
    obtain ⟨k, _, rfl⟩ := hs'
    exact ⟨_, rfl⟩
  · obtain ⟨size, rfl⟩ : ∃ t, size = t + 1 := ⟨size - 1, by omega⟩
    have hsum := sum_work nglobal (size + 1) (size + 1)
    rw [startOf_last nglobal (size + 1) hs] at hsum
    have hl : (List.range (size + 1)).map (fun k => work nglobal (size + 1) k :: rest) =
        (work nglobal (size + 1) 0 :: rest) ::
          (List.range size).map (fun k => work nglobal (size + 1) (k + 1) :: rest) := by
      rw [List.range_succ_eq_map]; simp
    have hany : ((List.range (size + 1)).map (fun k => work nglobal (size + 1) k :: rest)).any
        (fun s => s.length != (work nglobal (size + 1) 0 :: rest).length ||
          s.tail != (work nglobal (size + 1) 0 :: rest).tail) = false := by
      simp
    have hmap : ((List.range (size + 1)).map (fun k => work nglobal (size + 1) k :: rest)).map
        (fun s => s.headD 0) = (List.range (size + 1)).map (work nglobal (size + 1)) := by
      simp
    rw [hl] at hany hmap ⊢
    unfold combineShape
    simp only [hany, Bool.false_eq_true, if_false, hmap, hsum]

example : distributeShapes [7, 2] 3 = some [[3, 2], [2, 2], [2, 2]] ∧
    combineShape [[3, 2], [2, 2], [2, 2]] = some [7, 2] := by decide
example := C02_distribute_combine 7 [2] 3 (by decide)

/-- C02: the slice given to a rank by `distribute_slice` is the one of `split` and has the length of the first
dimension of the local shape of this rank. -/
theorem C02_distribute_slice (nglobal : Nat) (rest : List Nat) (size rank : Nat) (h : rank < size) :
    ∃ s : Slice, distributeSlice nglobal rank size = some s ∧ (split nglobal size)[rank]? = some s ∧
      distributeShape (nglobal :: rest) rank size = some ((s.stop - s.start) :: rest) := by
  have hs : size ≠ 0 := by omega
  refine ⟨⟨startOf nglobal size rank, startOf nglobal size (rank + 1)⟩, ?_,
    (C01_split_rank nglobal size rank h).symm.trans ?_, ?_⟩
  · have h' : startOf nglobal size (rank + 1) = startOf nglobal size rank + work nglobal size rank :=
      startOf_succ _ _ _
    rw [h']
    simp [distributeSlice, hs, startOf]
  · exact splitRank_eq nglobal size rank (by omega)
  · simp [distributeShape, hs, startOf_succ]

example : distributeSlice 7 1 3 = some ⟨3, 5⟩ := by decide

/-- C02: local shapes that do not agree on the trailing dimensions are rejected by `combine_shape`. -/
theorem C02_combine_rejects (shapes : List (List Nat)) (s t : List Nat) (hs : s ∈ shapes) (ht : t ∈ shapes)
    (hne : s.length ≠ t.length ∨ s.tail ≠ t.tail) : combineShape shapes = none := by
  match shapes, hs, ht with
  | s0 :: ss, hs, ht =>
    unfold combineShape
    have : ((s0 :: ss).any (fun s => s.length != s0.length || s.tail != s0.tail)) = true := by
      by_contra hcon
      have hall : ∀ u ∈ s0 :: ss, u.length = s0.length ∧ u.tail = s0.tail := by
        intro u hu
        by_contra hu'
        apply hcon
        rw [List.any_eq_true]
        refine ⟨u, hu, ?_⟩
        simp only [Bool.or_eq_true, bne_iff_ne, ne_eq]
        by_contra hh
        push Not at hh
        exact hu' ⟨hh.1, hh.2⟩
      have h1 := hall s hs
      have h2 := hall t ht
      rcases hne with h | h
      · exact h (h1.1.trans h2.1.symm)
      · exact h (h1.2.trans h2.2.symm)
    simp only [this, if_true]

example : combineShape [[3, 2], [2, 3]] = none :=
  C02_combine_rejects _ [3, 2] [2, 3] (by simp) (by simp) (Or.inr (by decide))

/-- C02: splitting a scalar among several processes is refused. -/
theorem C02_scalar_rejected (size rank : Nat) (h : 1 < size) : distributeShape [] rank size = none := by
  simp [distributeShape, h]

example : distributeShape [] 0 2 = none := C02_scalar_rejected 2 0 (by decide)

end Verif.Split
