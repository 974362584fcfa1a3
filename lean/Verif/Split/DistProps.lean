import Verif.Split.Dist
import Verif.Split.Lemmas
import Mathlib.Algebra.BigOperators.Group.List.Basic

/-
Property C03: the global distribution operator and its transpose.
-/

namespace Verif.Split

/-- Inner product of two flattened arrays of the same length (specification vocabulary). -/
def inner {R : Type} [Add R] [Mul R] [Zero R] (x y : List R) : R := (List.zipWith (· * ·) x y).sum

section lemmas

variable {α : Type}

theorem countsOffsets_range (n m row : Nat) : ∀ (d k : Nat),
    countsOffsets row ((List.range' k d).map fun j => (⟨startOf n m j, startOf n m (j + 1)⟩ : Slice))
        (startOf n m k * row) =
      ((List.range' k d).map fun j => work n m j * row, (List.range' k d).map fun j => startOf n m j * row) := by
  intro d
  induction d with
  | zero => intro k; rfl
  | succ d ih =>
    intro k
    have hw : startOf n m (k + 1) - startOf n m k = work n m k := by rw [startOf_succ]; omega
    have hoff : startOf n m k * row + work n m k * row = startOf n m (k + 1) * row := by
      rw [startOf_succ]; ring
    simp only [List.range'_succ, List.map_cons, countsOffsets, hw, hoff, ih (k + 1)]

theorem allgatherv_range (n m row : Nat) : ∀ (ys : List (List α)) (k : Nat) (pre post : List α),
    pre.length = startOf n m k * row →
    (∀ j, ∀ h : j < ys.length, ys[j].length = work n m (k + j) * row) →
    post.length = (startOf n m (k + ys.length) - startOf n m k) * row →
    allgatherv ys ((List.range' k ys.length).map fun j => work n m j * row)
      ((List.range' k ys.length).map fun j => startOf n m j * row) (pre ++ post) = some (pre ++ ys.flatten) := by
  intro ys
  induction ys with
  | nil =>
    intro k pre post h1 _ h3
    have : post = [] := by
      apply List.eq_nil_of_length_eq_zero
      rw [h3]; simp
    simp [allgatherv, this]
  | cons y ys ih =>
    intro k pre post h1 h2 h3
    have hy : y.length = work n m k * row := h2 0 (by simp)
    have hmono : startOf n m (k + 1) ≤ startOf n m (k + (ys.length + 1)) := startOf_mono n m (by omega)
    have hs := startOf_succ n m k
    have hpost : post.length = y.length + (startOf n m (k + 1 + ys.length) - startOf n m (k + 1)) * row := by
      rw [h3, hy, ← Nat.add_mul]
      congr 1
      have : k + (y :: ys).length = k + 1 + ys.length := by simp; omega
      rw [this]
      have : k + (ys.length + 1) = k + 1 + ys.length := by omega
      rw [this] at hmono
      omega
    simp only [List.length_cons, List.range'_succ, List.map_cons, allgatherv, hy, if_true]
    have hw : writeAt (pre ++ post) (startOf n m k * row) y = some ((pre ++ y) ++ post.drop y.length) := by
      unfold writeAt
      rw [if_pos (by simp; omega), ← h1]
      simp [List.drop_append]
    rw [hw, Option.bind_some, ih (k + 1) (pre ++ y) (post.drop y.length)]
    · simp
    · simp [h1, hy, hs, Nat.add_mul]
    · intro j h
      have := h2 (j + 1) (by simpa using h)
      simpa [Nat.add_assoc, Nat.add_comm 1 j] using this
    · simp [hpost]

theorem flatten_chunks (n m row : Nat) (x : List α) : ∀ (d k : Nat),
    ((List.range' k d).map fun j => (x.drop (startOf n m j * row)).take (work n m j * row)).flatten =
      (x.drop (startOf n m k * row)).take ((startOf n m (k + d) - startOf n m k) * row) := by
  intro d
  induction d with
  | zero => intro k; simp
  | succ d ih =>
    intro k
    simp only [List.range'_succ, List.map_cons, List.flatten_cons, ih (k + 1)]
    have hs := startOf_succ n m k
    have hm : startOf n m (k + 1) ≤ startOf n m (k + 1 + d) := startOf_mono n m (by omega)
    have e1 : (startOf n m (k + (d + 1)) - startOf n m k) * row =
        work n m k * row + (startOf n m (k + 1 + d) - startOf n m (k + 1)) * row := by
      rw [← Nat.add_mul]; congr 1
      have : k + (d + 1) = k + 1 + d := by omega
      rw [this]; omega
    have e2 : startOf n m (k + 1) * row = startOf n m k * row + work n m k * row := by rw [hs]; ring
    rw [e1, e2, ← List.drop_drop, List.take_add]

theorem transpose_eq (n m row : Nat) (hm : 0 < m) (ys : List (List α)) (out : List α)
    (hl : ys.length = m) (hy : ∀ j, ∀ h : j < ys.length, ys[j].length = work n m j * row)
    (ho : out.length = n * row) : distTranspose n row m ys out = some ys.flatten := by
  unfold distTranspose
  have h := countsOffsets_range n m row m 0
  rw [startOf_zero, Nat.zero_mul, ← List.range_eq_range'] at h
  rw [split_eq, h]
  have h2 := allgatherv_range n m row ys 0 [] out (by simp [startOf_zero]) (by simpa using hy)
    (by rw [hl]; simp [startOf_zero, startOf_last n m hm, ho])
  rw [hl, ← List.range_eq_range'] at h2
  simpa using h2

theorem direct_eq (n m row k : Nat) (hm : 0 < m) (x : List α) :
    distDirect n row m k x = some ((x.drop (startOf n m k * row)).take (work n m k * row)) := by
  unfold distDirect
  rw [splitRank_eq n m k hm]
  have : startOf n m (k + 1) - startOf n m k = work n m k := by rw [startOf_succ]; omega
  simp [this]

end lemmas

/-- C03: distributing a global array of `n` rows of `row` items among `size` processes succeeds on every rank, and the
transpose gives the global array back on every process, whatever the initial content of the output buffer. -/
theorem C03_gather_distribute {α : Type} (n row size : Nat) (hs : 0 < size) (x out : List α)
    (hx : x.length = n * row) (ho : out.length = n * row) :
    ∃ locals : List (List α), locals.length = size ∧
      (∀ rank, ∀ h : rank < locals.length, distDirect n row size rank x = some locals[rank]) ∧
      distTranspose n row size locals out = some x := by
  refine ⟨(List.range size).map fun k => (x.drop (startOf n size k * row)).take (work n size k * row),
    by simp, ?_, ?_⟩
  · intro rank h
    rw [direct_eq n size row rank hs]; simp
  · have hmono : ∀ j, j < size → startOf n size j * row + work n size j * row ≤ n * row := by
      intro j hj
      have h1 := startOf_mono n size (show j + 1 ≤ size by omega)
      rw [startOf_last n size hs, startOf_succ] at h1
      rw [← Nat.add_mul]
      exact Nat.mul_le_mul_right row h1
    rw [transpose_eq n size row hs _ out (by simp) _ ho]
    · have h := flatten_chunks n size row x size 0
      rw [← List.range_eq_range'] at h
      rw [h]
      simp [startOf_zero, startOf_last n size hs, ← hx]
    · intro j h
      have hj : j < size := by simpa using h
      have := hmono j hj
      simp [hx]; omega

example := C03_gather_distribute 3 2 2 (by decide) [1, 2, 3, 4, 5, 6] [0, 0, 0, 0, 0, 0] rfl rfl
example : distDirect 3 2 2 0 [1, 2, 3, 4, 5, 6] = some [1, 2, 3, 4] ∧
    distDirect 3 2 2 1 [1, 2, 3, 4, 5, 6] = some [5, 6] := by decide

theorem inner_append {R : Type} [NonUnitalNonAssocSemiring R] (a b c d : List R) (h : a.length = c.length) :
    inner (a ++ b) (c ++ d) = inner a c + inner b d := by
  unfold inner
  rw [List.zipWith_append h, List.sum_append]

theorem inner_flatten {R : Type} [NonUnitalNonAssocSemiring R] : ∀ (xs ys : List (List R)),
    xs.length = ys.length → (∀ j, ∀ h : j < xs.length, ∀ h' : j < ys.length, xs[j].length = ys[j].length) →
    inner xs.flatten ys.flatten = (List.zipWith inner xs ys).sum
  | [], [], _, _ => by simp [inner]
  | x :: xs, y :: ys, h, h' => by
    rw [List.flatten_cons, List.flatten_cons,
      inner_append x _ y _ (h' 0 (by simp) (by simp)),
      inner_flatten xs ys (by simpa using h)]
    · simp
    · intro j h1 h2
      exact h' (j + 1) (by simpa using h1) (by simpa using h2)

/-- C03: the transpose is the adjoint of the distribution: for every global array `x` and all local arrays `ys` with
the local sizes, the sum over the ranks of the local inner products of the distributed array with `ys` is the inner
product of `x` with the array gathered by the transpose. -/
theorem C03_adjoint {R : Type} [NonUnitalNonAssocSemiring R] (n row size : Nat) (hs : 0 < size) (x out : List R)
    (hx : x.length = n * row) (ho : out.length = n * row) (ys : List (List R)) (hl : ys.length = size)
    (hy : ∀ rank, ∀ h : rank < ys.length, ∃ s, splitRank n size rank = some s ∧
      ys[rank].length = (s.stop - s.start) * row) :
    ∃ (locals : List (List R)) (g : List R), locals.length = size ∧
      (∀ rank, ∀ h : rank < locals.length, distDirect n row size rank x = some locals[rank]) ∧
      distTranspose n row size ys out = some g ∧
      (List.zipWith inner locals ys).sum = inner x g := by
  have hy' : ∀ j, ∀ h : j < ys.length, ys[j].length = work n size j * row := by
    intro j h
    obtain ⟨s, h1, h2⟩ := hy j h
    rw [splitRank_eq n size j hs] at h1
    obtain rfl := Option.some.inj h1
    have : startOf n size (j + 1) - startOf n size j = work n size j := by rw [startOf_succ]; omega
    rw [h2, this]
  obtain ⟨locals, h1, h2, h3⟩ := C03_gather_distribute n row size hs x out hx ho
  refine ⟨locals, ys.flatten, h1, h2, transpose_eq n size row hs ys out hl hy' ho, ?_⟩
  have hloc : ∀ j, ∀ h : j < locals.length, locals[j].length = work n size j * row := by
    intro j h
    have hj := h2 j h
    rw [direct_eq n size row j hs] at hj
    rw [← Option.some.inj hj]
    have hm := startOf_mono n size (show j + 1 ≤ size by omega)
    rw [startOf_last n size hs, startOf_succ] at hm
    have := Nat.mul_le_mul_right row hm
    rw [Nat.add_mul] at this
    simp [hx]; omega
  rw [transpose_eq n size row hs locals out h1 hloc ho] at h3
  rw [← Option.some.inj h3]
  exact (inner_flatten locals ys (by omega) (by
    intro j h h'
    rw [hloc j h, hy' j h'])).symm

example := C03_adjoint (R := Int) 3 1 2 (by decide) [1, 2, 3] [0, 0, 0] rfl rfl [[10, 20], [30]] rfl (by
  intro rank h
  match rank, h with
  | 0, _ => exact ⟨⟨0, 2⟩, by decide, rfl⟩
  | 1, _ => exact ⟨⟨2, 3⟩, by decide, rfl⟩)

theorem inner_add {R : Type} [NonUnitalNonAssocSemiring R] : ∀ (x y z : List R), y.length = x.length → z.length = x.length →
    inner x (List.zipWith (· + ·) y z) = inner x y + inner x z
  | [], [], [], _, _ => by simp [inner]
  | a :: x, b :: y, c :: z, hy, hz => by
    have := inner_add x y z (by simpa using hy) (by simpa using hz)
    simp only [inner] at this
    simp only [inner, List.zipWith_cons_cons, List.sum_cons, this, mul_add]
    rw [add_add_add_comm]

/-- C03: the transpose of the identity distribution operator, the sum over the processes, is the adjoint of the distribution of a copy to every
process. -/
theorem C03_identity_adjoint {R : Type} [NonUnitalNonAssocSemiring R] (x : List R) (ys : List (List R)) (hne : ys ≠ [])
    (hy : ∀ y ∈ ys, y.length = x.length) :
    ∃ g, identTranspose ys = some g ∧ g.length = x.length ∧ (ys.map (inner x)).sum = inner x g := by
  induction ys with
  | nil => exact absurd rfl hne
  | cons y ys ih =>
    cases ys with
    | nil => exact ⟨y, rfl, hy y (by simp), by simp⟩
    | cons y' ys =>
      obtain ⟨g, h1, h2, h3⟩ := ih (by simp) fun z hz => hy z (by simp [hz])
      refine ⟨List.zipWith (· + ·) y g, by simp [identTranspose, h1], by simp [h2, hy y (by simp)], ?_⟩
      rw [inner_add x y g (hy y (by simp)) h2, List.map_cons, List.sum_cons, h3]

example : ∃ g, identTranspose [[1, 2], [10, 20], [100, (200 : Int)]] = some g ∧ inner [1, -1] g = -111 :=
  ⟨[111, 222], by decide, by decide⟩

end Verif.Split
