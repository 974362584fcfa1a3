import Verif.Memory.Lemmas
import Mathlib.Data.List.Nodup

/-
Properties C04, C05, C06, C07 and C47.
-/

namespace Verif.Memory

/-! ### C04 -/

/-- C04: the array returned by `empty` starts at a multiple of the alignment and all its bytes are inside the memory
obtained from the allocator, whatever the address of the latter. -/
theorem C04_empty_aligned_in_bounds (alignment requested address : Nat) (ha : 0 < alignment) :
    alignment ∣ emptyAddr alignment address ∧
    address ≤ emptyAddr alignment address ∧
    emptyAddr alignment address + requested ≤ address + emptyAlloc alignment requested := by
  unfold emptyAddr emptyAlloc
  have h1 := Nat.mod_lt address ha
  have h2 := Nat.div_add_mod address alignment
  refine ⟨⟨address / alignment + 1, ?_⟩, by omega, by omega⟩
  rw [Nat.mul_add, Nat.mul_one]
  omega

example : emptyAddr 32 1001 = 1024 ∧ emptyAddr 32 1024 = 1056 := by decide
example := C04_empty_aligned_in_bounds 32 100 1001 (by decide)

/-- C04 at the level of arrays: a non-empty array returned by `empty` is aligned, contiguous and has exactly the
requested number of bytes. -/
theorem C04_empty_array (cfg : Config) (shape : List Nat) (itemsize address : Nat) (ha : 0 < cfg.alignment)
    (hne : product shape * itemsize ≠ 0) :
    (empty cfg shape itemsize address).addr % cfg.alignment = 0 ∧
    (empty cfg shape itemsize address).contiguous = true ∧
    (empty cfg shape itemsize address).nbytes = product shape * itemsize := by
  refine ⟨?_, rfl, rfl⟩
  simp only [empty, if_neg hne]
  exact Nat.mod_eq_zero_of_dvd (C04_empty_aligned_in_bounds cfg.alignment 0 address ha).1

example := C04_empty_array ⟨32, 6, 5⟩ [2, 3] 8 1001 (by decide) (by decide)

/-! ### C05 -/

/-- The invariant of the pool: distinct start addresses, sizes in increasing order. -/
def PoolInv (p : Pool) : Prop :=
  (p.map Buf.addr).Nodup ∧ p.Pairwise (fun a b => a.nbytes ≤ b.nbytes)

/-- The elementary operations on the pool. Entering and leaving the contexts `get`, `get_if`, `set`, `set_if` and
`copy_if` are sequences of those. -/
inductive Op
  | add (v : Buf)
  | extract (r : Req) (address : Nat)
  | remove (v : Buf)
  | clear

/-- Outcome of an elementary operation: the pool afterwards, and whether it raised. -/
def step (cfg : Config) (p : Pool) : Op → Pool × Bool
  | .add v => match add p v with
    | .ok q => (q, false)
    | .error _ => (p, true)
  | .extract r a => ((extract cfg p r a).2, false)
  | .remove v => match remove p v with
    | .ok q => (q, false)
    | .error _ => (p, true)
  | .clear => (clear p, false)

/-- The pool after a history of operations, those that raise being caught. -/
def run (cfg : Config) (p : Pool) (ops : List Op) : Pool := ops.foldl (fun p op => (step cfg p op).1) p

theorem PoolInv.add {p q : Pool} {v : Buf} (h : PoolInv p) (ha : add p v = .ok q) : PoolInv q := by
  obtain ⟨rfl, hne⟩ := add_ok ha
  refine ⟨?_, insertSorted_sorted _ _ h.2⟩
  rw [((insertSorted_perm (flat v) p).map Buf.addr).nodup_iff]
  simp only [List.map_cons, List.nodup_cons, flat_addr]
  refine ⟨?_, h.1⟩
  intro hm
  obtain ⟨x, hx, he⟩ := List.mem_map.mp hm
  exact hne x hx he

theorem PoolInv.sublist {p q : Pool} (h : PoolInv p) (hs : q.Sublist p) : PoolInv q :=
  ⟨h.1.sublist (hs.map _), h.2.sublist hs⟩

theorem PoolInv.extract {cfg : Config} {p : Pool} {r : Req} {a : Nat} (h : PoolInv p) :
    PoolInv (extract cfg p r a).2 := by
  unfold Memory.extract
  split
  · rename_i res hr
    exact h.sublist (popFirst_sublist (x := res.1) (q := res.2) hr)
  · exact h

theorem PoolInv.remove {p q : Pool} {v : Buf} (h : PoolInv p) (hr : remove p v = .ok q) : PoolInv q := by
  obtain ⟨_, _, _, hs⟩ := remove_ok hr
  exact h.sublist hs

theorem step_inv (cfg : Config) (p : Pool) (op : Op) (h : PoolInv p) : PoolInv (step cfg p op).1 := by
  cases op with
  | add v =>
    unfold step
    simp only
    split
    · rename_i q hq; exact h.add hq
    · exact h
  | extract r a => exact h.extract
  | remove v =>
    unfold step
    simp only
    split
    · rename_i q hq; exact h.remove hq
    · exact h
  | clear => exact ⟨List.nodup_nil, List.Pairwise.nil⟩

/-- C05: after any history of operations on a pool that satisfies the invariant (in particular on a new, empty pool),
no two entries have the same start address and the entries are sorted by size. -/
theorem C05_pool_invariant (cfg : Config) (ops : List Op) (p : Pool) (h : PoolInv p) : PoolInv (run cfg p ops) := by
  unfold run
  induction ops generalizing p with
  | nil => exact h
  | cons op ops ih => exact ih _ (step_inv cfg p op h)

/-- C05, starting from a new pool. -/
theorem C05_new_pool_invariant (cfg : Config) (ops : List Op) : PoolInv (run cfg [] ops) :=
  C05_pool_invariant cfg ops [] ⟨List.nodup_nil, List.Pairwise.nil⟩

example : run ⟨32, 6, 5⟩ [] [.add ⟨64, [4], 8, true⟩, .add ⟨128, [2], 8, true⟩, .add ⟨64, [9], 1, true⟩,
    .add ⟨7, [3, 1], 8, false⟩] = [⟨128, [16], 1, true⟩, ⟨7, [3, 1], 8, false⟩, ⟨64, [32], 1, true⟩] := by decide

/-- C05: an operation that raises leaves the pool unchanged; `add` raises exactly when an entry with the same start
address is in the pool, and `remove` exactly when there is none. -/
theorem C05_failed_operations (cfg : Config) (p : Pool) (op : Op) :
    ((step cfg p op).2 = true → (step cfg p op).1 = p) ∧
    (∀ v, op = .add v → ((step cfg p op).2 = true ↔ ∃ x ∈ p, x.addr = v.addr)) ∧
    (∀ v, op = .remove v → ((step cfg p op).2 = true ↔ ∀ x ∈ p, x.addr ≠ v.addr)) := by
  refine ⟨?_, ?_, ?_⟩
  · cases op with
    | add v => unfold step; simp only; split <;> simp
    | extract r a => simp [step]
    | remove v => unfold step; simp only; split <;> simp
    | clear => simp [step]
  · rintro v rfl
    unfold step
    simp only
    split <;> rename_i q hq
    · simp only [Bool.false_eq_true, false_iff]
      rintro ⟨x, hx, he⟩
      exact (add_ok hq).2 x hx he
    · simp only [true_iff]
      by_contra hcon
      push Not at hcon
      rw [add_succeeds hcon] at hq
      simp at hq
  · rintro v rfl
    unfold step
    simp only
    split <;> rename_i q hq
    · simp only [Bool.false_eq_true, false_iff]
      intro hall
      obtain ⟨x, hx, hp, _⟩ := remove_ok hq
      exact hall x (hp.mem_iff.mpr (by simp)) hx
    · simp only [true_iff]
      unfold remove at hq
      split at hq
      · simp at hq
      · rename_i hn
        intro x hx
        have := popFirst_none hn x hx
        simpa using this

example : (step ⟨32, 6, 5⟩ [⟨64, [32], 1, true⟩] (.add ⟨64, [2], 8, true⟩)).2 = true := by decide

/-- C05: `add` adds exactly the array, with its start address, size and contiguity, `remove` takes out exactly one entry, which has the given start
address: no other entry is lost or duplicated. -/
theorem C05_content (p q : Pool) (v : Buf) :
    (add p v = .ok q → ∃ x, x.addr = v.addr ∧ x.nbytes = v.nbytes ∧ x.contiguous = v.contiguous ∧ q.Perm (x :: p)) ∧
    (remove p v = .ok q → ∃ x, x.addr = v.addr ∧ p.Perm (x :: q)) := by
  constructor
  · intro h
    obtain ⟨rfl, _⟩ := add_ok h
    exact ⟨flat v, flat_addr v, flat_nbytes v, flat_contiguous v, insertSorted_perm _ _⟩
  · intro h
    obtain ⟨x, hx, hp, _⟩ := remove_ok h
    exact ⟨x, hx, hp⟩

/-- C05: an array is in the pool if it can be removed from it, and only then; otherwise it can be added. -/
theorem C05_membership (p : Pool) (v : Buf) :
    (contains p v = true ↔ ∃ q, remove p v = .ok q) ∧ (contains p v = false ↔ ∃ q, add p v = .ok q) := by
  have hc : contains p v = true ↔ ∃ x ∈ p, x.addr = v.addr := by simp [contains]
  refine ⟨?_, ?_⟩
  · rw [hc]
    constructor
    · rintro ⟨x, hx, he⟩
      cases hr : popFirst (fun x => x.addr == v.addr) p with
      | none => exact absurd (popFirst_none hr x hx) (by simp [he])
      | some res => exact ⟨res.2, by simp [remove, hr]⟩
    · rintro ⟨q, h⟩
      obtain ⟨x, hx, hp, _⟩ := remove_ok h
      exact ⟨x, hp.mem_iff.mpr List.mem_cons_self, hx⟩
  · rw [← Bool.not_eq_true, hc]
    constructor
    · intro h
      exact ⟨_, add_succeeds fun x hx he => h ⟨x, hx, he⟩⟩
    · rintro ⟨q, h⟩ ⟨x, hx, he⟩
      exact (add_ok h).2 x hx he

example : contains [⟨64, [32], 1, true⟩] ⟨64, [2], 8, true⟩ = true ∧ contains [⟨64, [32], 1, true⟩] ⟨128, [2], 8, true⟩ = false := by
  decide

example : add [⟨64, [32], 1, true⟩] ⟨128, [2], 8, true⟩ = .ok [⟨128, [16], 1, true⟩, ⟨64, [32], 1, true⟩] := by
  decide

/-- C05 for the context managers: they preserve the invariant whatever their body does, provided that the body itself
preserves it, and whether or not the body raises. -/
theorem C05_contexts (cfg : Config) (v : Buf) (c : Bool) (r : Req) (a : Nat) (body : Body) (gbody : Buf → Body)
    (hb : ∀ p, PoolInv p → PoolInv (body p).2) (hg : ∀ u p, PoolInv p → PoolInv (gbody u p).2) (p : Pool)
    (h : PoolInv p) :
    PoolInv (withSetIf c v body p).2 ∧ PoolInv (withGet cfg r a gbody p).2 := by
  have hset : ∀ v body, (∀ p, PoolInv p → PoolInv (body p).2) → ∀ p, PoolInv p → PoolInv (withSet v body p).2 := by
    intro v body hb p h
    unfold withSet
    split
    · exact h
    · rename_i p1 h1
      have hp1 := h.add h1
      have hp2 := hb p1 hp1
      split <;> rename_i e
      · rename_i p2 _; rw [e] at hp2; exact hp2
      · rename_i p2
        rw [e] at hp2
        split
        · rename_i p3 h3; exact hp2.remove h3
        · exact hp2
  constructor
  · unfold withSetIf
    split
    · exact hset v body hb p h
    · exact hb p h
  · unfold withGet
    simp only
    have hp1 : PoolInv (extract cfg p r a).2 := h.extract
    split
    · exact hp1
    · rename_i u _
      have hp2 := hg u _ hp1
      split <;> rename_i e
      · rw [e] at hp2; exact hp2
      · rw [e] at hp2
        split
        · rename_i p3 h3; exact hp2.add h3
        · exact hp2

example : PoolInv (withSetIf true ⟨64, [4], 8, true⟩ (fun p => (none, p)) []).2 :=
  (C05_contexts ⟨32, 6, 5⟩ ⟨64, [4], 8, true⟩ true ⟨[4], 8, true, true⟩ 0 (fun p => (none, p)) (fun _ p => (none, p))
    (fun _ h => h) (fun _ _ h => h) [] ⟨List.nodup_nil, List.Pairwise.nil⟩).1

/-! ### C06 -/

/-- Specification of a buffer that meets a request: enough bytes, alignment and contiguity if they are requested; an
array that is not contiguous must have the very shape and item size of the request. -/
structure Meets (cfg : Config) (b : Buf) (r : Req) : Prop where
  size : r.nbytes ≤ b.nbytes
  aligned : r.aligned = true → cfg.alignment ∣ b.addr
  contiguous : r.contiguous = true → b.contiguous = true
  strided : b.contiguous = false → b.shape = r.shape ∧ b.itemsize = r.itemsize

/-- No more than the tolerated fraction is wasted. -/
def NoWaste (cfg : Config) (b : Buf) (r : Req) : Prop := b.nbytes * cfg.tolDen ≤ cfg.tolNum * r.nbytes

theorem compatible_meets {cfg : Config} {b : Buf} {r : Req} (h : iscompatible cfg b r = true) :
    Meets cfg b r ∧ (cfg.tolDen ≤ cfg.tolNum → NoWaste cfg b r) := by
  unfold iscompatible at h
  split at h <;> rename_i h1
  · simp at h
  · have hal : r.aligned = true → cfg.alignment ∣ b.addr := by
      intro hr
      simp only [hr, Bool.true_and, bne_iff_ne, ne_eq, not_not] at h1
      exact Nat.dvd_of_mod_eq_zero h1
    split at h <;> rename_i h2
    · split at h <;> rename_i h3
      · simp at h
      · simp only [Bool.and_eq_true, beq_iff_eq] at h
        have hn : b.nbytes = r.nbytes := by unfold Buf.nbytes Req.nbytes; rw [h.1, h.2]
        refine ⟨⟨by omega, hal, fun hc => absurd hc h3, fun _ => h⟩, ?_⟩
        intro ht
        unfold NoWaste
        rw [hn, Nat.mul_comm]
        exact Nat.mul_le_mul_right _ ht
    · have hbc : b.contiguous = true := by simpa using h2
      split at h <;> rename_i h3
      · simp at h
      · simp only [Bool.and_eq_true, decide_eq_true_eq] at h
        exact ⟨⟨h.1, hal, fun _ => hbc, fun hf => by rw [hbc] at hf; simp at hf⟩, fun _ => h.2⟩

/-- C06: the buffer handed out by the pool meets the request (non-empty requests, alignment at least one). -/
theorem C06_extract_meets (cfg : Config) (p : Pool) (r : Req) (address : Nat) (ha : 0 < cfg.alignment)
    (hr : r.nbytes ≠ 0) : Meets cfg (extract cfg p r address).1 r ∧
      (cfg.tolDen ≤ cfg.tolNum → NoWaste cfg (extract cfg p r address).1 r) := by
  unfold extract
  split
  · rename_i res hres
    obtain ⟨_, _, _, _, hc, _⟩ := popFirst_some (x := res.1) (q := res.2) hres
    exact compatible_meets hc
  · have he := C04_empty_array cfg r.shape r.itemsize address ha hr
    refine ⟨⟨Nat.le_refl _, fun _ => Nat.dvd_of_mod_eq_zero he.1, fun _ => rfl, fun hf => ?_⟩, ?_⟩
    · rw [he.2.1] at hf; simp at hf
    · intro ht
      unfold NoWaste
      have : (empty cfg r.shape r.itemsize address).nbytes = r.nbytes := rfl
      rw [this, Nat.mul_comm]
      exact Nat.mul_le_mul_right _ ht

example := C06_extract_meets ⟨32, 6, 5⟩ [⟨64, [36], 1, true⟩] ⟨[4], 8, true, true⟩ 1000 (by decide) (by decide)
example : (extract ⟨32, 6, 5⟩ [⟨64, [36], 1, true⟩] ⟨[4], 8, true, true⟩ 1000).1.addr = 64 ∧
    (extract ⟨32, 6, 5⟩ [⟨65, [36], 1, true⟩] ⟨[4], 8, true, true⟩ 1000).1.addr = 1024 := by decide

/-- C06: the buffer handed out can always be viewed with the requested shape and item size, the view has exactly the
requested number of bytes and the start address of the buffer, and is aligned and contiguous as requested. -/
theorem C06_view_succeeds (cfg : Config) (p : Pool) (r : Req) (address : Nat) (ha : 0 < cfg.alignment)
    (hr : r.nbytes ≠ 0) :
    ∃ v, view (extract cfg p r address).1 r.shape r.itemsize = .ok v ∧ v.shape = r.shape ∧
      v.itemsize = r.itemsize ∧ v.addr = (extract cfg p r address).1.addr ∧ Meets cfg v r := by
  have hm := (C06_extract_meets cfg p r address ha hr).1
  revert hm
  generalize (extract cfg p r address).1 = b
  intro hm
  unfold view
  by_cases hb : b.contiguous = true
  · rw [if_pos hb, if_pos (by have := hm.size; unfold Req.nbytes at this; rw [Nat.mul_comm]; exact this)]
    exact ⟨_, rfl, rfl, rfl, rfl, ⟨Nat.le_refl _, hm.aligned, fun _ => rfl, fun h => by simp at h⟩⟩
  · have hb' : b.contiguous = false := by simpa using hb
    obtain ⟨h1, h2⟩ := hm.strided hb'
    rw [if_neg hb, if_pos (by simp [h1, h2])]
    exact ⟨_, rfl, h1, h2, rfl, hm⟩

example : view ⟨64, [36], 1, true⟩ [2, 2] 8 = .ok ⟨64, [2, 2], 8, true⟩ := by decide

/-- C06: a view of any buffer has the requested shape and item size and lies inside the buffer: buffers that are too small, and strided buffers
of another shape, are refused. -/
theorem C06_view_inside {b v : Buf} {shape : List Nat} {itemsize : Nat} (h : view b shape itemsize = .ok v) :
    v.shape = shape ∧ v.itemsize = itemsize ∧ v.addr = b.addr ∧ v.nbytes ≤ b.nbytes := by
  unfold view at h
  split at h
  · split at h
    · rename_i hn
      cases h
      exact ⟨rfl, rfl, rfl, by unfold Buf.nbytes at hn ⊢; rw [Nat.mul_comm]; exact hn⟩
    · cases h
  · split at h
    · rename_i hs
      cases h
      simp only [Bool.and_eq_true, beq_iff_eq] at hs
      exact ⟨hs.1, hs.2, rfl, Nat.le_refl _⟩
    · cases h

example : view ⟨64, [3, 2], 8, false⟩ [3, 2] 8 = .ok ⟨64, [3, 2], 8, false⟩ ∧ view ⟨64, [3, 2], 8, false⟩ [2, 2] 8 = .error .valueError := by
  decide

/-- C06: either an entry of the pool is handed out, and then it is taken out of the pool, nothing else changes in the
pool and no entry left has the same start address; or none of the entries is compatible, and then the pool is
unchanged. -/
theorem C06_extract_exclusive (cfg : Config) (p : Pool) (r : Req) (address : Nat) (h : PoolInv p) :
    (p.Perm ((extract cfg p r address).1 :: (extract cfg p r address).2) ∧
      ∀ x ∈ (extract cfg p r address).2, x.addr ≠ (extract cfg p r address).1.addr) ∨
    ((extract cfg p r address).2 = p ∧ ∀ x ∈ p, iscompatible cfg x r = false) := by
  unfold extract
  split
  · rename_i res hres
    left
    have hp := popFirst_perm (x := res.1) (q := res.2) hres
    refine ⟨hp, ?_⟩
    have hn := (hp.map Buf.addr).nodup_iff.mp h.1
    simp only [List.map_cons, List.nodup_cons] at hn
    intro x hx he
    exact hn.1 (List.mem_map.mpr ⟨x, hx, he⟩)
  · rename_i hn
    right
    exact ⟨rfl, popFirst_none hn⟩

example := C06_extract_exclusive ⟨32, 6, 5⟩ [⟨64, [36], 1, true⟩] ⟨[4], 8, true, true⟩ 1000 ⟨by simp, by simp⟩

/-- C06: best fit. No entry that meets the request within the tolerance is smaller than the one handed out. -/
theorem C06_extract_best_fit (cfg : Config) (p : Pool) (r : Req) (address : Nat) (h : PoolInv p) (y : Buf)
    (hy : y ∈ p) (hm : Meets cfg y r) (hw : NoWaste cfg y r) (hr : r.nbytes ≠ 0) :
    (extract cfg p r address).1 ∈ p ∧ (extract cfg p r address).1.nbytes ≤ y.nbytes := by
  have hc : iscompatible cfg y r = true := by
    unfold iscompatible
    rw [if_neg]
    · by_cases hb : y.contiguous = true
      · rw [if_neg (by simp [hb]), if_neg hr]
        simp only [Bool.and_eq_true, decide_eq_true_eq]
        exact ⟨hm.size, hw⟩
      · have hb' : y.contiguous = false := by simpa using hb
        rw [if_pos (by simp [hb']), if_neg]
        · simp [hm.strided hb']
        · intro hrc; exact hb (hm.contiguous hrc)
    · simp only [Bool.and_eq_true, bne_iff_ne, ne_eq, not_and, not_not]
      intro hal
      exact Nat.mod_eq_zero_of_dvd (hm.aligned hal)
  unfold extract
  split
  · rename_i res hres
    obtain ⟨l, q, rfl, h2, h3, h4⟩ := popFirst_some (x := res.1) (q := res.2) hres
    refine ⟨by simp, ?_⟩
    simp only [List.mem_append, List.mem_cons] at hy
    rcases hy with hy | rfl | hy
    · rw [h4 y hy] at hc; simp at hc
    · exact Nat.le_refl _
    · have hs := (List.pairwise_append.mp h.2).2.1
      exact List.rel_of_pairwise_cons hs hy
  · rename_i hn
    rw [popFirst_none hn y hy] at hc
    simp at hc

example : (extract ⟨32, 6, 5⟩ [⟨64, [33], 1, true⟩, ⟨128, [36], 1, true⟩] ⟨[4], 8, true, true⟩ 1000).1.addr = 64 := by
  decide

/-! ### C06: exclusivity over whole histories

`pool` is the content of the pool and `out` the buffers that have been handed out and not put back yet. `Disj` is any
notion of "does not share memory" that implies different start addresses; what the allocator and the user provide must
be disjoint from what is alive. -/

structure Live where
  pool : Pool
  out : List Buf

/-- A notion of disjointness: symmetric, implies distinct start addresses, not affected by the flattening. -/
structure DisjNotion (Disj : Buf → Buf → Prop) : Prop where
  symm : ∀ a b, Disj a b → Disj b a
  addr : ∀ a b, Disj a b → a.addr ≠ b.addr
  flat : ∀ a b, Disj a b → Disj (flat a) b

/-- One step of an execution. -/
inductive LiveStep (cfg : Config) (Disj : Buf → Buf → Prop) : Live → Live → Prop
  /-- `get` is entered; if the buffer is a new one, it is disjoint from all the live ones. -/
  | get (s : Live) (r : Req) (a : Nat)
      (hnew : (∀ x ∈ s.pool, iscompatible cfg x r = false) →
        ∀ x ∈ s.pool ++ s.out, Disj (extract cfg s.pool r a).1 x) :
      LiveStep cfg Disj s ⟨(extract cfg s.pool r a).2, (extract cfg s.pool r a).1 :: s.out⟩
  /-- `get` is left: the buffer is put back. -/
  | put (s : Live) (b : Buf) (q : Pool) (hb : b ∈ s.out) (hq : add s.pool b = .ok q) :
      LiveStep cfg Disj s ⟨q, s.out.erase b⟩
  /-- `set` is entered with an array disjoint from the live ones. -/
  | give (s : Live) (v : Buf) (q : Pool) (hv : ∀ x ∈ s.pool ++ s.out, Disj v x) (hq : add s.pool v = .ok q) :
      LiveStep cfg Disj s ⟨q, s.out⟩
  /-- `set` is left. -/
  | take (s : Live) (v : Buf) (q : Pool) (hq : remove s.pool v = .ok q) : LiveStep cfg Disj s ⟨q, s.out⟩

/-- Executions. -/
inductive LiveReach (cfg : Config) (Disj : Buf → Buf → Prop) : Live → Prop
  | init : LiveReach cfg Disj ⟨[], []⟩
  | step {s t : Live} : LiveReach cfg Disj s → LiveStep cfg Disj s t → LiveReach cfg Disj t

theorem pairwise_flat_cons {Disj : Buf → Buf → Prop} (hd : DisjNotion Disj) {b : Buf} {l : List Buf}
    (h : (b :: l).Pairwise Disj) : (flat b :: l).Pairwise Disj := by
  rw [List.pairwise_cons] at h ⊢
  exact ⟨fun x hx => hd.flat _ _ (h.1 x hx), h.2⟩

/-- C06: in every execution all the buffers in the pool and all those that are handed out are pairwise disjoint: no
memory is handed out twice, and nothing that is in use can be handed out again; and putting back a buffer never
fails. -/
theorem C06_live_disjoint (cfg : Config) (Disj : Buf → Buf → Prop) (hd : DisjNotion Disj) (s : Live)
    (hs : LiveReach cfg Disj s) :
    (s.pool ++ s.out).Pairwise Disj ∧ ∀ b ∈ s.out, ∃ q, add s.pool b = .ok q := by
  have hsymm : ∀ {a b : Buf}, Disj a b → Disj b a := fun h => hd.symm _ _ h
  have main : (s.pool ++ s.out).Pairwise Disj := by
    induction hs with
    | init => exact List.Pairwise.nil
    | step _ hst ih =>
      cases hst with
      | get r a hnew =>
        rename_i s0 _
        simp only
        revert hnew
        unfold extract
        split
        · rename_i res hres
          intro _
          have hp := popFirst_perm (x := res.1) (q := res.2) hres
          have h2 := (hp.append_right s0.out).pairwise_iff hsymm |>.mp ih
          exact ((List.perm_middle (a := res.1) (l₁ := res.2) (l₂ := s0.out)).pairwise_iff hsymm).mpr h2
        · rename_i hn
          intro hnew
          have := hnew (popFirst_none hn)
          refine ((List.perm_middle (l₁ := s0.pool) (l₂ := s0.out)).pairwise_iff hsymm).mpr ?_
          exact List.pairwise_cons.mpr ⟨this, ih⟩
      | put b q hb hq =>
        rename_i s0 _
        obtain ⟨rfl, _⟩ := add_ok hq
        have hp : (s0.pool ++ s0.out).Perm (b :: (s0.pool ++ s0.out.erase b)) :=
          ((List.perm_cons_erase hb).append_left s0.pool).trans List.perm_middle
        have h2 := pairwise_flat_cons hd ((hp.pairwise_iff hsymm).mp ih)
        exact (((insertSorted_perm (flat b) s0.pool).append_right (s0.out.erase b)).pairwise_iff hsymm).mpr h2
      | give v q hv hq =>
        rename_i s0 _
        obtain ⟨rfl, _⟩ := add_ok hq
        have h2 : (flat v :: (s0.pool ++ s0.out)).Pairwise Disj :=
          pairwise_flat_cons hd (List.pairwise_cons.mpr ⟨hv, ih⟩)
        exact (((insertSorted_perm (flat v) s0.pool).append_right s0.out).pairwise_iff hsymm).mpr h2
      | take v q hq =>
        rename_i s0 _
        obtain ⟨_, _, _, hsub⟩ := remove_ok hq
        exact ih.sublist (hsub.append (List.Sublist.refl _))
  refine ⟨main, ?_⟩
  intro b hb
  refine ⟨_, add_succeeds ?_⟩
  intro x hx
  exact hd.addr _ _ ((List.pairwise_append.mp main).2.2 x hx b hb)

/-- Disjointness of the memory ranges of non-empty arrays (exact for contiguous arrays). -/
def RangeDisj (a b : Buf) : Prop :=
  a.addr ≠ b.addr ∧ (a.addr + a.nbytes ≤ b.addr ∨ b.addr + b.nbytes ≤ a.addr)

theorem rangeDisj_notion : DisjNotion RangeDisj where
  symm := fun _ _ h => ⟨h.1.symm, h.2.symm⟩
  addr := fun _ _ h => h.1
  flat := fun a b h => by
    unfold RangeDisj
    rw [flat_addr, flat_nbytes]; exact h

/-- A concrete execution: a new buffer is handed out, put back, and handed out again for a smaller request. -/
example : LiveReach ⟨32, 6, 5⟩ RangeDisj
    ⟨[], [⟨1024, [40], 1, true⟩]⟩ :=
  .step (.step (.step .init
    (.get ⟨[], []⟩ ⟨[5], 8, true, true⟩ 1000 (by simp)))
    (.put _ ⟨1024, [5], 8, true⟩ [⟨1024, [40], 1, true⟩] (by decide) (by decide)))
    (.get ⟨[⟨1024, [40], 1, true⟩], []⟩ ⟨[38], 1, true, true⟩ 2000
      (fun h => absurd (h ⟨1024, [40], 1, true⟩ (by simp)) (by decide)))

/-! ### C07 -/

/-- A pool is free of an array if no entry has its start address. -/
def Absent (p : Pool) (v : Buf) : Prop := ∀ x ∈ p, x.addr ≠ v.addr

theorem withSet_absent (v : Buf) (body : Body) (p p' : Pool)
    (hb : ∀ q, PoolInv q → PoolInv (body q).2) (h : PoolInv p) (hr : withSet v body p = (none, p')) :
    Absent p' v := by
  unfold withSet at hr
  split at hr
  · simp at hr
  · rename_i p1 h1
    have hp2 := hb p1 (h.add h1)
    split at hr <;> rename_i e
    · simp at hr
    · rename_i p2
      rw [e] at hp2
      split at hr
      · rename_i p3 h3
        simp only [Prod.mk.injEq, true_and] at hr
        subst hr
        obtain ⟨x, hx, hperm, _⟩ := remove_ok h3
        have hn := (hperm.map Buf.addr).nodup_iff.mp hp2.1
        simp only [List.map_cons, List.nodup_cons] at hn
        intro y hy he
        exact hn.1 (List.mem_map.mpr ⟨y, hy, he.trans hx.symm⟩)
      · simp at hr

/-- C07, partial: whatever the operator does with the pool (as long as it uses the pool operations, which preserve the
pool invariant), when the call returns normally neither of the user's arrays that were lent to the pool is in the pool.
Missing from the full property: the calls that end by an exception, for which the claim is false (see
`C07_user_array_left_in_pool_fails`). -/
theorem C07_user_arrays_absent_partial (reuseX : Bool) (x : Buf) (reuseOut : Bool) (out : Buf) (direct : Body)
    (p p' : Pool) (h : PoolInv p) (hx : Absent p x) (hout : Absent p out)
    (hb : ∀ q, PoolInv q → PoolInv (direct q).2)
    (hlend : ∀ q, (Absent q x → Absent (direct q).2 x) ∧ (Absent q out → Absent (direct q).2 out))
    (hr : callSets reuseX x reuseOut out direct p = (none, p')) :
    Absent p' x ∧ Absent p' out := by
  have add_absent : ∀ {q q' : Pool} {u w : Buf}, add q u = .ok q' → Absent q w → u.addr ≠ w.addr → Absent q' w := by
    intro q q' u w ha hq hne y hy
    obtain ⟨rfl, _⟩ := add_ok ha
    rcases List.mem_cons.mp ((insertSorted_perm _ _).mem_iff.mp hy) with rfl | hy
    · rw [flat_addr]; exact hne
    · exact hq y hy
  have remove_absent : ∀ {q q' : Pool} {u w : Buf}, remove q u = .ok q' → Absent q w → Absent q' w := by
    intro q q' u w ha hq y hy
    obtain ⟨_, _, _, hs⟩ := remove_ok ha
    exact hq y (hs.subset hy)
  have hcontext : ∀ (v w : Buf) (body : Body) (q q' : Pool), withSet v body q = (none, q') →
      (∀ q, Absent q w → Absent (body q).2 w) → Absent q w → v.addr ≠ w.addr → Absent q' w := by
    intro v w body q q' hr hbody hq hne
    unfold withSet at hr
    split at hr
    · simp at hr
    · rename_i p1 h1
      have h2 := hbody p1 (add_absent h1 hq hne)
      split at hr <;> rename_i e
      · simp at hr
      · rw [e] at h2
        split at hr
        · rename_i p3 h3
          simp only [Prod.mk.injEq, true_and] at hr
          subst hr
          exact remove_absent h3 h2
        · simp at hr
  unfold callSets withSetIf at hr
  cases hX : reuseX <;> cases hO : reuseOut <;> simp only [hX, hO, if_true, if_false, Bool.false_eq_true] at hr
  · have := hlend p; rw [hr] at this; exact ⟨this.1 hx, this.2 hout⟩
  · have h1 := withSet_absent out direct p p' hb h hr
    refine ⟨?_, h1⟩
    by_cases he : out.addr = x.addr
    · intro y hy; rw [← he]; exact h1 y hy
    · exact hcontext out x direct p p' hr (fun q => (hlend q).1) hx he
  · have h1 := withSet_absent x direct p p' hb h hr
    refine ⟨h1, ?_⟩
    by_cases he : x.addr = out.addr
    · intro y hy; rw [← he]; exact h1 y hy
    · exact hcontext x out direct p p' hr (fun q => (hlend q).2) hout he
  · have hin : ∀ q, PoolInv q → PoolInv (withSet out direct q).2 := by
      intro q hq
      have := (C05_contexts ⟨1, 1, 1⟩ out true ⟨[], 0, false, false⟩ 0 direct (fun _ p => (none, p)) hb
        (fun _ _ h => h) q hq).1
      simpa [withSetIf] using this
    have h1 := withSet_absent x (withSet out direct) p p' hin h hr
    refine ⟨h1, ?_⟩
    by_cases he : x.addr = out.addr
    · intro y hy; rw [← he]; exact h1 y hy
    · -- out: removed by the inner context, which returned normally
      unfold withSet at hr
      split at hr
      · simp at hr
      · rename_i p1 hp1
        split at hr <;> rename_i p2 e
        · simp at hr
        · have h2 : Absent p2 out := withSet_absent out direct p1 p2 hb (h.add hp1) e
          split at hr
          · rename_i p3 h3
            simp only [Prod.mk.injEq, true_and] at hr
            subst hr
            exact remove_absent h3 h2
          · simp at hr

/-- Non-trivial instance: both arrays lent, the operator returns normally. -/
example : callSets true ⟨64, [4], 8, true⟩ true ⟨128, [4], 8, true⟩ (fun p => (none, p)) [] = (none, []) := by decide

/-- C07 is violated by the code: an operator that raises leaves the user's output array in the pool, and the memory of
that array is then handed out to the next operation that asks for a buffer of that size: it will overwrite the user's
array. -/
theorem C07_user_array_left_in_pool_fails :
    ∃ (out : Buf) (direct : Body) (r : Req), (∀ q, PoolInv q → PoolInv (direct q).2) ∧
      (let res := callSets false out true out direct []
       res.1 = some .bodyError ∧ ¬ Absent res.2 out ∧
       (extract ⟨32, 6, 5⟩ res.2 r 1000).1.addr = out.addr) :=
  ⟨⟨64, [4], 8, true⟩, fun p => (some .bodyError, p), ⟨[4], 8, true, true⟩, fun _ h => h, by
    refine ⟨by decide, ?_, by decide⟩
    intro h
    exact h ⟨64, [32], 1, true⟩ (by decide) rfl⟩

/-! ### C47 -/

/-- Bytes deleted since the last collection, computed from the history (most recent deletion first) and without the
counter: the sum of the most recent deletions, back to the last time the running sum reached the threshold. -/
def bytesSince (threshold : Nat) : List Nat → Nat
  | [] => 0
  | n :: older => if bytesSince threshold older + n ≥ threshold then 0 else bytesSince threshold older + n

/-- Number of collections for a history (most recent deletion first). -/
def collectionsOf (threshold : Nat) : List Nat → Nat
  | [] => 0
  | n :: older => collectionsOf threshold older + (if bytesSince threshold older + n ≥ threshold then 1 else 0)

/-- C47: after any sequence of deletions the counter is below the threshold, a collection is performed by a deletion
exactly when the bytes deleted since the last collection, this deletion included, reach the threshold, and then the
count starts again from zero. -/
theorem C47_gc_threshold (threshold : Nat) (ht : 0 < threshold) (s : Gc) (n : Option Nat) :
    (garbageCollect threshold s n).counter < threshold ∧
    ((garbageCollect threshold s n).collections = s.collections + 1 ∧ (garbageCollect threshold s n).counter = 0 ∧
        threshold ≤ s.counter + n.getD threshold ∨
     (garbageCollect threshold s n).collections = s.collections ∧
        (garbageCollect threshold s n).counter = s.counter + n.getD threshold ∧
        s.counter + n.getD threshold < threshold) := by
  unfold garbageCollect
  cases n with
  | none =>
    simp only [Option.getD_none]
    rw [if_pos (by omega)]
    exact ⟨ht, Or.inl ⟨rfl, rfl, by omega⟩⟩
  | some k =>
    simp only [Option.getD_some]
    split <;> rename_i h
    · exact ⟨ht, Or.inl ⟨rfl, rfl, h⟩⟩
    · exact ⟨by simpa using h, Or.inr ⟨rfl, rfl, by omega⟩⟩

/-- C47 over histories: the counter is the number of bytes deleted since the last collection and the number of
collections is the one of the specification. -/
theorem C47_gc_history (threshold : Nat) (deletions : List Nat) :
    deletions.foldl (fun s n => garbageCollect threshold s (some n)) ⟨0, 0⟩ =
      ⟨bytesSince threshold deletions.reverse, collectionsOf threshold deletions.reverse⟩ := by
  rw [← List.foldr_reverse]
  generalize deletions.reverse = l
  induction l with
  | nil => rfl
  | cons n l ih =>
    rw [List.foldr_cons, ih]
    simp only [garbageCollect, bytesSince, collectionsOf]
    split <;> simp

example : [60, 30, 20, 50, 60].foldl (fun s n => garbageCollect 100 s (some n)) ⟨0, 0⟩ = ⟨0, 2⟩ := by decide

end Verif.Memory
