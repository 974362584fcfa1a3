import Verif.Memory.Model
import Mathlib.Data.List.Perm.Basic
import Mathlib.Data.List.Pairwise
import Mathlib.Tactic.Ring
import Mathlib.Tactic.Linarith

namespace Verif.Memory

theorem insertSorted_perm (v : Buf) : ∀ p : Pool, (insertSorted v p).Perm (v :: p)
  | [] => List.Perm.refl _
  | x :: xs => by
    unfold insertSorted
    split
    · exact List.Perm.refl _
    · exact ((insertSorted_perm v xs).cons x).trans (List.Perm.swap v x xs)

theorem insertSorted_sorted (v : Buf) : ∀ p : Pool, p.Pairwise (fun a b => a.nbytes ≤ b.nbytes) →
    (insertSorted v p).Pairwise (fun a b => a.nbytes ≤ b.nbytes)
  | [], _ => by simp [insertSorted]
  | x :: xs, h => by
    unfold insertSorted
    split <;> rename_i hx
    · refine List.Pairwise.cons ?_ h
      intro b hb
      rcases List.mem_cons.mp hb with rfl | hb'
      · exact hx
      · exact Nat.le_trans hx (List.rel_of_pairwise_cons h hb')
    · refine List.Pairwise.cons ?_ (insertSorted_sorted v xs (List.Pairwise.of_cons h))
      intro b hb
      rcases List.mem_cons.mp ((insertSorted_perm v xs).mem_iff.mp hb) with rfl | hb'
      · omega
      · exact List.rel_of_pairwise_cons h hb'

theorem popFirst_some {f : Buf → Bool} : ∀ {p : Pool} {x : Buf} {q : Pool}, popFirst f p = some (x, q) →
    ∃ l r, p = l ++ x :: r ∧ q = l ++ r ∧ f x = true ∧ ∀ y ∈ l, f y = false
  | [], _, _, h => by simp [popFirst] at h
  | a :: as, x, q, h => by
    unfold popFirst at h
    split at h <;> rename_i ha
    · simp only [Option.some.injEq, Prod.mk.injEq] at h
      obtain ⟨rfl, rfl⟩ := h
      exact ⟨[], as, rfl, rfl, ha, by simp⟩
    · cases hp : popFirst f as with
      | none => simp [hp] at h
      | some res =>
        simp only [hp, Option.map_some, Option.some.injEq, Prod.mk.injEq] at h
        obtain ⟨h1, rfl⟩ := h
        have hp' : popFirst f as = some (x, res.2) := by rw [hp, ← h1]
        obtain ⟨l, r, e1, e2, e3, e4⟩ := popFirst_some hp'
        refine ⟨a :: l, r, by rw [e1]; rfl, by rw [e2]; rfl, e3, ?_⟩
        intro y hy
        rcases List.mem_cons.mp hy with rfl | hy'
        · simpa using ha
        · exact e4 y hy'

theorem popFirst_none {f : Buf → Bool} : ∀ {p : Pool}, popFirst f p = none → ∀ y ∈ p, f y = false
  | [], _, y, hy => by simp at hy
  | a :: as, h, y, hy => by
    unfold popFirst at h
    split at h <;> rename_i ha
    · simp at h
    · have h' : popFirst f as = none := by simpa using h
      rcases List.mem_cons.mp hy with rfl | hy'
      · simpa using ha
      · exact popFirst_none h' y hy'

theorem popFirst_perm {f : Buf → Bool} {p : Pool} {x : Buf} {q : Pool} (h : popFirst f p = some (x, q)) :
    p.Perm (x :: q) := by
  obtain ⟨l, r, rfl, rfl, _, _⟩ := popFirst_some h
  exact List.perm_middle

theorem popFirst_sublist {f : Buf → Bool} {p : Pool} {x : Buf} {q : Pool} (h : popFirst f p = some (x, q)) :
    q.Sublist p := by
  obtain ⟨l, r, rfl, rfl, _, _⟩ := popFirst_some h
  exact List.Sublist.append (List.Sublist.refl l) (List.sublist_cons_self x r)

theorem flat_addr (v : Buf) : (flat v).addr = v.addr := by
  unfold flat; split <;> rfl

theorem flat_nbytes (v : Buf) : (flat v).nbytes = v.nbytes := by
  unfold flat; split
  · simp [Buf.nbytes, product]
  · rfl

theorem flat_contiguous (v : Buf) : (flat v).contiguous = v.contiguous := by
  unfold flat; split <;> rename_i h
  · exact h.symm
  · rfl

theorem add_ok {p q : Pool} {v : Buf} (h : add p v = .ok q) :
    q = insertSorted (flat v) p ∧ ∀ x ∈ p, x.addr ≠ v.addr := by
  unfold add at h
  simp only at h
  split at h <;> rename_i hany
  · simp at h
  · refine ⟨(Except.ok.inj h).symm, ?_⟩
    intro x hx heq
    apply hany
    rw [List.any_eq_true]
    exact ⟨x, hx, by simp [flat_addr, heq]⟩

theorem add_succeeds {p : Pool} {v : Buf} (h : ∀ x ∈ p, x.addr ≠ v.addr) :
    add p v = .ok (insertSorted (flat v) p) := by
  unfold add
  simp only
  rw [if_neg]
  intro hany
  rw [List.any_eq_true] at hany
  obtain ⟨x, hx, he⟩ := hany
  rw [flat_addr] at he
  exact h x hx (by simpa using he)

theorem remove_ok {p q : Pool} {v : Buf} (h : remove p v = .ok q) :
    ∃ x, x.addr = v.addr ∧ p.Perm (x :: q) ∧ q.Sublist p := by
  unfold remove at h
  split at h
  · rename_i res hr
    obtain rfl := Except.ok.inj h
    obtain ⟨l, r, h1, h2, h3, _⟩ := popFirst_some (x := res.1) (q := res.2) hr
    exact ⟨res.1, by simpa using h3, popFirst_perm hr, popFirst_sublist hr⟩
  · simp at h

end Verif.Memory
