import Verif.Split.Model
import Mathlib.Tactic.Ring
import Mathlib.Tactic.Linarith
import Mathlib.Algebra.BigOperators.Group.List.Basic

namespace Verif.Split

/-- closed form of the start of the rank-th slice -/
def startOf (n m rank : Nat) : Nat := n / m * rank + min rank (n % m)

theorem startOf_succ (n m rank : Nat) : startOf n m (rank + 1) = startOf n m rank + work n m rank := by
  unfold startOf work
  have h : n / m * (rank + 1) = n / m * rank + n / m := by ring
  rw [h]
  split <;> omega

theorem startOf_zero (n m : Nat) : startOf n m 0 = 0 := by simp [startOf]

theorem startOf_last (n m : Nat) (hm : 0 < m) : startOf n m m = n := by
  unfold startOf
  have h1 := Nat.mod_lt n hm
  have h2 := Nat.div_add_mod n m
  have h3 : n / m * m = m * (n / m) := by ring
  omega

theorem startOf_mono (n m : Nat) {a b : Nat} (h : a ≤ b) : startOf n m a ≤ startOf n m b := by
  induction h with
  | refl => exact Nat.le_refl _
  | step _ ih => rw [startOf_succ]; omega

theorem gen_eq (n m : Nat) : ∀ (d rank : Nat), m - rank = d → 
    gen n m rank (startOf n m rank) =
      (List.range' rank d).map (fun k => ⟨startOf n m k, startOf n m (k + 1)⟩) := by
  intro d
  induction d with
  | zero =>
    intro rank h
    unfold gen
    simp only [List.range'_zero, List.map_nil]
    rw [if_neg (by omega)]
  | succ d ih =>
    intro rank h
    unfold gen
    rw [if_pos (by omega), List.range'_succ, List.map_cons, ← startOf_succ, ih (rank + 1) (by omega)]

theorem split_eq (n m : Nat) :
    split n m = (List.range m).map (fun k => ⟨startOf n m k, startOf n m (k + 1)⟩) := by
  have h := gen_eq n m m 0 (by omega)
  rw [startOf_zero] at h
  rw [split, h, List.range_eq_range']

theorem splitRank_eq (n m k : Nat) (hm : 0 < m) :
    splitRank n m k = some ⟨startOf n m k, startOf n m (k + 1)⟩ := by
  unfold splitRank
  rw [if_neg (by omega), startOf_succ]
  rfl

theorem exists_block (n m i : Nat) (hm : 0 < m) (hi : i < n) :
    ∃ k, k < m ∧ startOf n m k ≤ i ∧ i < startOf n m (k + 1) := by
  have key : ∀ j, i < startOf n m j → ∃ k, k < j ∧ startOf n m k ≤ i ∧ i < startOf n m (k + 1) := by
    intro j
    induction j with
    | zero => intro h; rw [startOf_zero] at h; omega
    | succ j ih =>
      intro h
      by_cases h' : i < startOf n m j
      · obtain ⟨k, hk, h1, h2⟩ := ih h'
        exact ⟨k, by omega, h1, h2⟩
      · exact ⟨j, by omega, by omega, h⟩
  exact key m (by rw [startOf_last n m hm]; exact hi)

theorem sum_work (n m : Nat) : ∀ k, ((List.range k).map (work n m)).sum = startOf n m k := by
  intro k
  induction k with
  | zero => simp [startOf_zero]
  | succ k ih => rw [List.range_succ, List.map_append, List.sum_append, ih, startOf_succ]; simp

end Verif.Split
