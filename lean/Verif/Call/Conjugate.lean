import Verif.Compose.Loop

/-!
# C129: the conjugate of an operator

`Operator.conjugate`, which computes `A.C` for the operators that do not define it otherwise, for an operator whose method `direct` takes a temporary
array from the memory pool.  The memory and the pool are those of the model of compositions (Verif/Compose/Model.lean).
-/

namespace Verif.Call.Conjugate

open Verif.Compose

variable {V : Type}

/-- The method `direct` of an operator, written by a user: `t = g(input); output[...] = h(input, t)`.  The temporary `t` is an array of the given
shape and item size of the pool (`with pool.get(...) as t`, or an array that is taken from the pool by the call of another operator), or, for `none`, an array that is not
taken from the pool. -/
structure UserOp (V : Type) where
  tmp : Option Sh
  g : V → V
  h : V → V → V

/-- What the operator computes. -/
def UserOp.value (op : UserOp V) (x : V) : V := op.h x (op.g x)

def setMem (s : St V) (b : Nat) (v : V) : St V := { s with mem := fun j => if j = b then v else s.mem j }

/-- `op.direct(i, o)`; the temporary array is taken and put back as `MemoryPool.get` does: src/pyoperators/memory.py:210-229. -/
def direct (tol : Nat → Nat → Bool) (op : UserOp V) (i o : Arr) (s : St V) : Except Err (St V) :=
  match op.tmp with
  | none => .ok (setMem s o.id (op.value (s.mem i.id)))
  | some sh => do
    let e := extract tol s sh.nbytes false false
    let t ← view e.1 sh
    let s := setMem e.2 t.id (op.g (e.2.mem i.id))
    let s := setMem s o.id (op.h (s.mem i.id) (s.mem t.id))
    add s e.1

/-- `Operator.conjugate(input, output)`: src/pyoperators/core.py:416-422.  `complex` tells that the data type of the input is complex.  The block of the context manager ends before
`direct` is called: the buffer that holds the conjugate of the input is in the pool when `direct` reads it. -/
def conjugate (tol : Nat → Nat → Bool) (conj : V → V) (complex : Bool) (op : UserOp V) (i o : Arr) (s : St V) : Except Err (St V) := do
  let p ← if complex then do
      let e := extract tol s i.sh.nbytes false false
      let b ← view e.1 i.sh
      let s ← add (setMem e.2 b.id (conj (s.mem i.id))) e.1
      Except.ok (b, s)
    else .ok (i, s)
  let s ← direct tol op p.1 o p.2
  .ok (setMem s o.id (conj (s.mem o.id)))

/-- The buffers of the pool are distinct and allocated. -/
structure Pool (s : St V) : Prop where
  nodup : (s.pool.map Arr.id).Nodup
  below : ∀ x ∈ s.pool, x.id < s.next

theorem extract_cases (tol : Nat → Nat → Bool) (s : St V) (size : Nat) (hs : Pool s) :
    let e := extract tol s size false false
    e.1.contiguous = true ∧ size ≤ e.1.sh.nbytes ∧ e.2.mem = s.mem ∧ Pool e.2 ∧ (∀ x ∈ e.2.pool, x ∈ s.pool ∧ x.id ≠ e.1.id) ∧ s.next ≤ e.2.next ∧
      e.1.id < e.2.next ∧ ((e.1 ∈ s.pool ∧ iscompatible tol e.1 size false false = true) ∨ e.1.id = s.next) := by
  obtain ⟨e, s', he, h1, h2, _, h3, _⟩ := extract_ok tol s size false false
  simp only [he]
  refine ⟨h1, h2, h3, ?_⟩
  unfold extract at he
  cases hq : popFirst (fun x => iscompatible tol x size false false) s.pool with
  | some r =>
    rw [hq] at he
    obtain ⟨rfl, rfl⟩ := Prod.mk.inj he
    obtain ⟨hc, hp⟩ := popFirst_some _ _ _ _ (by rw [hq])
    have hm : r.1 ∈ s.pool := hp.symm.subset (by simp)
    have hn : ((r.1 :: r.2).map Arr.id).Nodup := (hp.map Arr.id).nodup_iff.1 hs.nodup
    rw [List.map_cons, List.nodup_cons] at hn
    refine ⟨⟨hn.2, fun x hx => hs.below x (hp.symm.subset (by simp [hx]))⟩, fun x hx => ⟨hp.symm.subset (by simp [hx]), fun e => hn.1 ?_⟩,
      Nat.le_refl _, hs.below _ hm, .inl ⟨hm, hc⟩⟩
    rw [← e]
    exact List.mem_map_of_mem hx
  | none =>
    rw [hq] at he
    obtain ⟨rfl, rfl⟩ := Prod.mk.inj he
    refine ⟨⟨hs.nodup, fun x hx => Nat.lt_succ_of_lt (hs.below x hx)⟩, fun x hx => ⟨hx, ?_⟩, Nat.le_succ _, Nat.lt_succ_self _, .inr rfl⟩
    exact Nat.ne_of_lt (hs.below x hx)

theorem view_ok {b : Arr} {sh : Sh} (h1 : b.contiguous = true) (h2 : sh.nbytes ≤ b.sh.nbytes) : view b sh = .ok { b with sh := sh } := by
  unfold view
  rw [if_pos h1, if_pos h2]

theorem add_ok {s : St V} {v : Arr} (h : ∀ x ∈ s.pool, x.id ≠ v.id) : add s v = .ok { s with pool := insertSorted v s.pool } := by
  unfold add
  rw [if_neg]
  simpa using h

/-- `direct` computes the value of the operator, if its input and output are not in the pool, or if the input is in a buffer of the pool that is not
compatible with the temporary array. -/
theorem direct_ok (tol : Nat → Nat → Bool) (op : UserOp V) {i o : Arr} {s : St V} (hs : Pool s) (hi : i.id < s.next) (ho : o.id < s.next) (hio : i.id ≠ o.id)
    (hop : ∀ x ∈ s.pool, x.id ≠ o.id)
    (hip : ∀ sh, op.tmp = some sh → ∀ x ∈ s.pool, x.id = i.id → iscompatible tol x sh.nbytes false false = false) :
    ∃ s', direct tol op i o s = .ok s' ∧ s'.mem o.id = op.value (s.mem i.id) ∧
      (∀ j, j < s.next → j ≠ o.id → (∀ x ∈ s.pool, x.id ≠ j) → s'.mem j = s.mem j) := by
  unfold direct
  cases ht : op.tmp with
  | none =>
    refine ⟨_, rfl, by simp [setMem], fun j _ hj _ => by simp [setMem, hj]⟩
  | some sh =>
    obtain ⟨h1, h2, h3, _, h5, _, _, h8⟩ := extract_cases tol s sh.nbytes hs
    simp only [bind, Except.bind]
    generalize extract tol s sh.nbytes false false = e at h1 h2 h3 h5 h8 ⊢
    simp only [view_ok h1 h2]
    have hei : e.1.id ≠ i.id := by
      rcases h8 with ⟨hm, hc⟩ | h
      · intro h
        rw [hip sh ht _ hm h] at hc
        cases hc
      · omega
    have heo : e.1.id ≠ o.id := by
      rcases h8 with ⟨hm, _⟩ | h
      · exact hop _ hm
      · omega
    rw [add_ok (by exact fun x hx => (h5 x hx).2)]
    refine ⟨_, rfl, ?_, ?_⟩
    · simp [setMem, UserOp.value, h3, hei.symm]
    · intro j hj hjo hjp
      have : j ≠ e.1.id := by
        rcases h8 with ⟨hm, _⟩ | h
        · exact (hjp _ hm).symm
        · omega
      simp [setMem, h3, hjo, this]

/-- **C129, partial.** The operator itself computes its value, whether it takes its temporary array from the pool or not, and leaves its input as it
is. -/
theorem C129_direct_partial (tol : Nat → Nat → Bool) (op : UserOp V) {i o : Arr} {s : St V} (hs : Pool s) (hi : i.id < s.next) (ho : o.id < s.next)
    (hio : i.id ≠ o.id) (hip : ∀ x ∈ s.pool, x.id ≠ i.id) (hop : ∀ x ∈ s.pool, x.id ≠ o.id) :
    ∃ s', direct tol op i o s = .ok s' ∧ s'.mem o.id = op.value (s.mem i.id) ∧ s'.mem i.id = s.mem i.id := by
  obtain ⟨s', h1, h2, h3⟩ := direct_ok tol op hs hi ho hio hop (fun _ _ x hx h => absurd h (hip x hx))
  exact ⟨s', h1, h2, h3 _ hi hio hip⟩

/-- **C129, partial.** The conjugate of an operator computes conj(A(conj(x))) and leaves its input as it is, if the operator takes no temporary array
from the pool, or one for which the buffer of the conjugate of the input is too small.  Missing from the full property: the other operators
(`C129_pool_fails`). -/
theorem C129_conjugate_partial (tol : Nat → Nat → Bool) (conj : V → V) (op : UserOp V) {i o : Arr} {s : St V} (hs : Pool s) (hi : i.id < s.next)
    (ho : o.id < s.next) (hio : i.id ≠ o.id) (hip : ∀ x ∈ s.pool, x.id ≠ i.id) (hop : ∀ x ∈ s.pool, x.id ≠ o.id)
    (h : ∀ sh, op.tmp = some sh → (extract tol s i.sh.nbytes false false).1.sh.nbytes < sh.nbytes) :
    ∃ s', conjugate tol conj true op i o s = .ok s' ∧ s'.mem o.id = conj (op.value (conj (s.mem i.id))) ∧ s'.mem i.id = s.mem i.id := by
  unfold conjugate
  obtain ⟨h1, h2, h3, h4, h5, h6, h7, h8⟩ := extract_cases tol s i.sh.nbytes hs
  generalize extract tol s i.sh.nbytes false false = e at h h1 h2 h3 h4 h5 h6 h7 h8 ⊢
  have hei : e.1.id ≠ i.id := by
    rcases h8 with ⟨hm, _⟩ | h
    · exact hip _ hm
    · omega
  have heo : e.1.id ≠ o.id := by
    rcases h8 with ⟨hm, _⟩ | h
    · exact hop _ hm
    · omega
  simp only [if_true, view_ok h1 h2, bind, Except.bind]
  rw [add_ok (v := e.1) (by exact fun x hx => (h5 x hx).2)]
  simp only
  generalize hw : ({ setMem e.2 e.1.id (conj (s.mem i.id)) with pool := insertSorted e.1 (setMem e.2 e.1.id (conj (s.mem i.id))).pool } : St V) = w
  have hperm : w.pool.Perm (e.1 :: e.2.pool) := by
    rw [← hw]
    exact insertSorted_perm _ _
  have hnext : w.next = e.2.next := by rw [← hw]; rfl
  have hmem : ∀ j, w.mem j = if j = e.1.id then conj (s.mem i.id) else s.mem j := by
    intro j
    rw [← hw, ← h3]
    rfl
  have hwp : Pool w := by
    constructor
    · rw [(hperm.map Arr.id).nodup_iff, List.map_cons, List.nodup_cons]
      refine ⟨fun hm => ?_, h4.nodup⟩
      obtain ⟨x, hx, hxe⟩ := List.mem_map.1 hm
      exact (h5 x hx).2 hxe
    · intro x hx
      rw [hnext]
      rcases List.mem_cons.1 (hperm.subset hx) with rfl | hx
      · exact h7
      · exact h4.below x hx
  have hno : ∀ j, e.1.id ≠ j → (∀ x ∈ s.pool, x.id ≠ j) → ∀ x ∈ w.pool, x.id ≠ j := by
    intro j hj hjp x hx
    rcases List.mem_cons.1 (hperm.subset hx) with rfl | hx
    · exact hj
    · exact hjp x (h5 x hx).1
  obtain ⟨s', hd, hv, hk⟩ := direct_ok tol op (i := { e.1 with sh := i.sh }) (o := o) hwp (by rw [hnext]; exact h7) (by rw [hnext]; omega) heo (hno _ heo hop)
    (by
      intro sh hsh x hx hxe
      rcases List.mem_cons.1 (hperm.subset hx) with rfl | hx
      · have := h sh hsh
        unfold iscompatible
        split
        · rfl
        · split
          · rfl
          · split
            · rfl
            · simp only [Bool.and_eq_false_iff, decide_eq_false_iff_not]
              left
              omega
      · exact absurd hxe (h5 x hx).2)
  rw [hd]
  refine ⟨_, rfl, ?_, ?_⟩
  · simp [setMem, hv, hmem]
  · have := hk i.id (by rw [hnext]; omega) hio (hno _ hei hip)
    simp only [setMem, if_neg hio, this, hmem, if_neg hei.symm]

/-- **C129, partial.** For a real input, the conjugate of an operator computes the conjugate of its value. -/
theorem C129_real_partial (tol : Nat → Nat → Bool) (conj : V → V) (op : UserOp V) {i o : Arr} {s : St V} (hs : Pool s) (hi : i.id < s.next)
    (ho : o.id < s.next) (hio : i.id ≠ o.id) (hip : ∀ x ∈ s.pool, x.id ≠ i.id) (hop : ∀ x ∈ s.pool, x.id ≠ o.id) :
    ∃ s', conjugate tol conj false op i o s = .ok s' ∧ s'.mem o.id = conj (op.value (s.mem i.id)) ∧ s'.mem i.id = s.mem i.id := by
  obtain ⟨s', h1, h2, h3⟩ := C129_direct_partial tol op hs hi ho hio hip hop
  unfold conjugate
  simp only [Bool.false_eq_true, if_false, bind, Except.bind, h1]
  exact ⟨_, rfl, by simp [setMem, h2], by simp [setMem, hio, h3]⟩

/-- **C129 does not hold** for the operators that take a temporary array of the size of the input: with an empty pool, the temporary array is the
buffer of the conjugate of the input, which is overwritten before it is read. -/
theorem C129_pool_fails (conj : V → V) (op : UserOp V) {i o : Arr} (hsh : op.tmp = some i.sh) (h0 : i.sh.nbytes ≠ 0) (m : Nat → V) {n : Nat}
    (hi : i.id < n) (ho : o.id < n) :
    ∃ s', conjugate noTol conj true op i o ⟨m, [], n⟩ = .ok s' ∧
      s'.mem o.id = conj (op.h (op.g (conj (m i.id))) (op.g (conj (m i.id)))) := by
  have e1 : i.sh.nbytes ≤ (⟨[i.sh.nbytes], 1⟩ : Sh).nbytes := by simp [Sh.nbytes, Verif.Memory.product]
  have hno : n ≠ o.id := by omega
  have hni : n ≠ i.id := by omega
  unfold conjugate
  simp only [if_true, extract, popFirst, bind, Except.bind, setMem]
  rw [view_ok rfl e1]
  simp only [add, List.any_nil, Bool.false_eq_true, if_false, insertSorted, direct, hsh, extract, popFirst, iscompatible, Bool.not_true,
    h0, e1, decide_true, noTol, Bool.and_self, if_true, Option.map, bind, Except.bind]
  rw [view_ok rfl e1]
  refine ⟨_, rfl, ?_⟩
  simp [setMem]

/-- The operator x + 2 x of complex numbers (pairs of integers): its conjugate multiplies by 4 instead of 3. -/
theorem C129_value_fails : ∃ (op : UserOp (Int × Int)) (i o : Arr) (m : Nat → Int × Int) (s' : St (Int × Int)), (∀ x, op.value x = (3 * x.1, 3 * x.2)) ∧
    conjugate noTol (fun x => (x.1, -x.2)) true op i o ⟨m, [], 2⟩ = .ok s' ∧ m i.id = (1, 1) ∧ s'.mem o.id = (4, 4) := by
  refine ⟨⟨some ⟨[1], 16⟩, fun x => (2 * x.1, 2 * x.2), fun x y => (x.1 + y.1, x.2 + y.2)⟩, ⟨0, ⟨[1], 16⟩, true, true⟩, ⟨1, ⟨[1], 16⟩, true, true⟩,
    fun _ => (1, 1), _, ?_, rfl, rfl, by decide⟩
  intro x
  simp only [UserOp.value]
  ext <;> simp <;> omega

/-- A pool with a large buffer, and an operator with a larger temporary array: the hypotheses of `C129_conjugate_partial`. -/
example : Pool (⟨fun _ => (0 : Int), [⟨2, ⟨[32], 1⟩, true, true⟩], 3⟩ : St Int) ∧
    (extract noTol (⟨fun _ => (0 : Int), [⟨2, ⟨[32], 1⟩, true, true⟩], 3⟩ : St Int) 16 false false).1.sh.nbytes < (⟨[4], 16⟩ : Sh).nbytes :=
  ⟨⟨by decide, by decide⟩, by decide⟩

end Verif.Call.Conjugate
