import Verif.Iter.ControlProps
import Mathlib.Data.List.FinRange

/-
Model of the buffers of the variables of an iterative algorithm: src/pyoperators/iterative/core.py:197-221 (`initialize`), 305-327
(`_set_buffer_handling`), 337-393 (`_set_initial_state`) and 426-435 (`_update_variables`); and property C38.
-/

namespace Verif.Iter

/-- The buffers: those that the user gives, and those that the algorithm allocates. -/
inductive Buf where
  | user (address : Nat)
  | fresh (generation var lag : Nat)
deriving DecidableEq, Repr

/-- The three options. -/
structure Handling where
  inplace : Bool
  allocate : Bool
  reuse : Bool
deriving DecidableEq, Repr

/-- `_set_buffer_handling`: src/pyoperators/iterative/core.py:305-327. -/
def setBufferHandling (inplace allocate reuse : Bool) : Handling :=
  if inplace then ⟨inplace, false, reuse⟩
  else if !allocate then ⟨inplace, allocate, false⟩
  else ⟨inplace, allocate, reuse⟩

/-- `copy`: src/pyoperators/iterative/core.py:214-216. -/
def Handling.copy (h : Handling) : Bool := (h.inplace || h.allocate) && !h.reuse

/-- The memory, the number of allocations and, for each of the n variables, the buffers its names refer to: x_new, x, x_old, x_old2, ... or,
in place, x. -/
structure State (V : Type) (n : Nat) where
  heap : Buf → V
  gen : Nat
  names : Fin n → Nat → Buf

variable {V : Type} {n order : Nat}

/-- Assignment of the contents of a buffer. -/
def set (h : Buf → V) (b : Buf) (v : V) : Buf → V := fun c => if c = b then v else h c

/-- `skip_new`: src/pyoperators/iterative/core.py:210. -/
def Handling.skip (h : Handling) : Nat := if h.inplace then 0 else 1

/-- The values of the variables, which an iteration, the callback and the stop conditions see: those of x, x_old, x_old2, ... -/
def window (h : Handling) (order : Nat) (s : State V n) : Fin n → Fin order → V := fun v j => s.heap (s.names v (j + h.skip))

/-- The recurrence, the buffers of the initial values and the stop conditions. -/
structure Recurrence (V : Type) (n order : Nat) where
  /-- The new value of a variable. -/
  new : Fin n → (Fin n → Fin order → V) → V
  /-- What the iteration raises. -/
  signal : (Fin n → Fin order → V) → Signal
  /-- The buffers of the initial values of x, x_old, x_old2, ... -/
  initial : Fin n → Fin order → Nat
  normal : Nat → (Fin n → Fin order → V) → Bool
  abnormal : Nat → (Fin n → Fin order → V) → Bool

/-- The check of `_set_initial_state`: src/pyoperators/iterative/core.py:377-393: two initial values do not refer to the same buffer if the
buffers are reused. -/
def Recurrence.Accepted (r : Recurrence V n order) (h : Handling) : Prop :=
  h.reuse = true → ∀ v w j k, r.initial v j = r.initial w k → v = w ∧ j = k

/-- The constructor allocates the buffers of the new values: src/pyoperators/iterative/core.py:375-376.  The other names, and x_new if
it is not allocated, do not exist yet. -/
def create (heap : Buf → V) : State V n := ⟨heap, 1, fun v j => .fresh 0 v j⟩

/-- `initialize`: src/pyoperators/iterative/core.py:209-221.  The initial values have the dtype of the algorithm and are contiguous, so that
`np.array` does not copy them if copy is false. -/
def setup (h : Handling) (r : Recurrence V n order) (s : State V n) : State V n :=
  { heap := fun b =>
      match b with
      | .user a => s.heap (.user a)
      | .fresh g v j =>
        if hv : v < n then
          if hj : j < order then
            if g = s.gen && h.copy then s.heap (.user (r.initial ⟨v, hv⟩ ⟨j, hj⟩)) else s.heap (.fresh g v j)
          else s.heap (.fresh g v j)
        else s.heap (.fresh g v j)
    gen := s.gen + 1
    names := fun v k =>
      if k < h.skip then s.names v k
      else if hj : k - h.skip < order then
        if h.copy then .fresh s.gen v (k - h.skip) else .user (r.initial v ⟨k - h.skip, hj⟩)
      else s.names v k }

/-- The assignments of the new values of the variables of a list. -/
def assign (h : Handling) (f : Fin n → (Fin n → Fin order → V) → V) (s : State V n) (l : List (Fin n)) (heap : Buf → V) : Buf → V :=
  l.foldl (fun heap v => set heap (s.names v 0) (f v (window h order { s with heap := heap }))) heap

/-- The user's iteration.  It computes the new values one after the other from the values of the variables: it writes them in the
buffers of the new values if these are allocated beforehand, in those of the variables if the recursion is in place,
and otherwise creates them. -/
def iteration (h : Handling) (r : Recurrence V n order) (s : State V n) : State V n :=
  let s' : State V n :=
    if !h.inplace && !h.allocate then
      { s with gen := s.gen + 1, names := fun v k => if k = 0 then .fresh s.gen v 0 else s.names v k }
    else s
  { s' with heap := assign h r.new s' (List.finRange n) s'.heap }

/-- `_update_variables`: src/pyoperators/iterative/core.py:426-435. -/
def update (h : Handling) (order : Nat) (s : State V n) : State V n :=
  if h.inplace then s
  else { s with names := fun v k => if k = 0 then s.names v order else if k ≤ order then s.names v (k - 1) else s.names v k }

/-- The algorithm. -/
def algo (h : Handling) (r : Recurrence V n order) : Algo (State V n) :=
  { order := order, reuse := h.reuse
    setup := fun s => (setup h r s, .go)
    iteration := fun s => (iteration h r s, r.signal (window h order s))
    update := update h order
    normal := fun m s => r.normal m (window h order s)
    abnormal := fun m s => r.abnormal m (window h order s) }

/-! ### Invariants -/

/-- The new values are not written in a buffer that is still needed. -/
structure Separate (h : Handling) (order : Nat) (s : State V n) : Prop where
  new : ∀ v w, s.names v 0 = s.names w 0 → v = w
  needed : h.inplace = false → ∀ v w (j : Fin order), s.names v 0 ≠ s.names w (j + 1)

theorem set_same (h : Buf → V) (b : Buf) (v : V) : set h b v b = v := by simp [set]

theorem set_other (h : Buf → V) {b c : Buf} (v : V) (hne : c ≠ b) : set h b v c = h c := by simp [set, hne]

/-- The successive assignments of the new values. -/
theorem fold_new (h : Handling) (ho : h.inplace = false) (f : Fin n → (Fin n → Fin order → V) → V) (s : State V n) (hs : Separate h order s)
    (l : List (Fin n)) (hl : l.Nodup) (heap : Buf → V) (hw : window h order { s with heap := heap } = window h order s) :
    (∀ b, (∀ v ∈ l, b ≠ s.names v 0) → assign h f s l heap b = heap b) ∧
      ∀ v ∈ l, assign h f s l heap (s.names v 0) = f v (window h order s) := by
  induction l generalizing heap with
  | nil => exact ⟨fun b _ => rfl, fun v hv => by cases hv⟩
  | cons v l ih =>
    rw [List.nodup_cons] at hl
    have hw' : window h order { s with heap := set heap (s.names v 0) (f v (window h order s)) } = window h order s := by
      rw [← hw]
      funext w j
      simp only [window, Handling.skip, ho]
      exact set_other _ _ (Ne.symm (hs.needed ho v w j))
    obtain ⟨h1, h2⟩ := ih hl.2 _ hw'
    have e : assign h f s (v :: l) heap = assign h f s l (set heap (s.names v 0) (f v (window h order s))) := by
      simp only [assign, List.foldl_cons, hw]
    rw [e]
    refine ⟨?_, ?_⟩
    · intro b hb
      rw [h1 b (fun w hw => hb w (List.mem_cons_of_mem _ hw)), set_other _ _ (hb v List.mem_cons_self)]
    · intro w hwl
      rcases List.mem_cons.1 hwl with rfl | hwl
      · rw [h1 _ (fun u hu e => hl.1 (by rw [hs.new _ _ e]; exact hu)), set_same]
      · exact h2 w hwl

/-- The in place update of the variables, one after the other. -/
def sequential (f : Fin n → (Fin n → Fin order → V) → V) (l : List (Fin n)) (x : Fin n → Fin order → V) : Fin n → Fin order → V :=
  l.foldl (fun x v => fun w j => if w = v then f v x else x w j) x

theorem fold_inplace (h : Handling) (ho : h.inplace = true) (horder : order = 1) (f : Fin n → (Fin n → Fin order → V) → V) (s : State V n)
    (hs : ∀ v w, s.names v 0 = s.names w 0 → v = w) (l : List (Fin n)) (heap : Buf → V) :
    window h order { s with heap := assign h f s l heap } = sequential f l (window h order { s with heap := heap }) ∧
      ∀ b, (∀ v ∈ l, b ≠ s.names v 0) → assign h f s l heap b = heap b := by
  induction l generalizing heap with
  | nil => exact ⟨rfl, fun b _ => rfl⟩
  | cons v l ih =>
    obtain ⟨h1, h2⟩ := ih (set heap (s.names v 0) (f v (window h order { s with heap := heap })))
    have e : assign h f s (v :: l) heap =
        assign h f s l (set heap (s.names v 0) (f v (window h order { s with heap := heap }))) := rfl
    rw [e]
    refine ⟨?_, ?_⟩
    · rw [h1]
      simp only [sequential, List.foldl_cons]
      congr 1
      funext w j
      have hj : (j : Nat) = 0 := by have := j.isLt; omega
      have e1 : ∀ (g : Buf → V), window h order { s with heap := g } w j = g (s.names w 0) := by
        intro g
        simp only [window, Handling.skip, ho, if_true, hj]
      by_cases hwv : w = v
      · subst hwv
        rw [if_pos rfl, e1, set_same]
      · rw [if_neg hwv, e1, e1, set_other _ _ (fun e => hwv (hs _ _ e))]
    · intro b hb
      rw [h2 b (fun w hw => hb w (List.mem_cons_of_mem _ hw)), set_other _ _ (hb v List.mem_cons_self)]

/-- All the names of the variables refer to different buffers. -/
def Distinct (order : Nat) (s : State V n) : Prop :=
  ∀ v w j k, j ≤ order → k ≤ order → s.names v j = s.names w k → v = w ∧ j = k

/-- The buffer is the user's, or was allocated before. -/
def Old (g : Nat) : Buf → Prop
  | .user _ => True
  | .fresh g' _ _ => g' < g

/-- What holds between two iterations. -/
structure Good (h : Handling) (order : Nat) (s : State V n) : Prop where
  alloc : h.inplace = false → h.allocate = true → Distinct order s
  noalloc : h.inplace = false → h.allocate = false → ∀ v (j : Fin order), Old s.gen (s.names v (j + 1))
  inplace : h.inplace = true → ∀ v w, s.names v 0 = s.names w 0 → v = w

/-- The value-level recurrence: the new window. -/
def shifted (h : Handling) (r : Recurrence V n order) (x : Fin n → Fin order → V) : Fin n → Fin order → V :=
  if h.inplace then sequential r.new (List.finRange n) x
  else fun v j => if hj : (j : Nat) = 0 then r.new v x else x v ⟨j - 1, by omega⟩

theorem iteration_update (h : Handling) (r : Recurrence V n order) (hh : h.inplace = true → order = 1) (s : State V n) (hg : Good h order s) :
    Good h order (update h order (iteration h r s)) ∧
      window h order (update h order (iteration h r s)) = shifted h r (window h order s) ∧
      Separate h order (iteration h r s) := by
  cases hi : h.inplace with
  | true =>
    have hb : (!h.inplace && !h.allocate) = false := by simp [hi]
    obtain ⟨h1, h2⟩ := fold_inplace h hi (hh hi) r.new s (hg.inplace hi) (List.finRange n) s.heap
    refine ⟨⟨fun e => ?_, fun e => ?_, fun _ => ?_⟩, ?_, ⟨?_, fun e => ?_⟩⟩
    · rw [hi] at e; cases e
    · rw [hi] at e; cases e
    · simp only [update, iteration, hi, if_true, Bool.not_true, Bool.false_and, Bool.false_eq_true, if_false]
      exact hg.inplace hi
    · simp only [update, iteration, hi, if_true, Bool.not_true, Bool.false_and, Bool.false_eq_true, if_false, shifted]
      exact h1
    · simp only [iteration, hi, Bool.not_true, Bool.false_and, Bool.false_eq_true, if_false]
      exact hg.inplace hi
    · rw [hi] at e; cases e
  | false =>
    have key : ∀ s' : State V n, s'.heap = s.heap → (∀ v (j : Fin order), s'.names v (j + 1) = s.names v (j + 1)) → Separate h order s' →
        window h order (update h order { s' with heap := assign h r.new s' (List.finRange n) s'.heap }) =
        shifted h r (window h order s) := by
      intro s' hheap hnames hsep
      have hws : window h order s' = window h order s := by
        funext v j
        simp only [window, Handling.skip, hi, Bool.false_eq_true, if_false, hheap, hnames]
      obtain ⟨h1, h2⟩ := fold_new h hi r.new s' hsep (List.finRange n) (List.nodup_finRange n) s'.heap rfl
      rw [hws] at h2
      funext v j
      simp only [shifted, hi, Bool.false_eq_true, if_false, window, update, Handling.skip]
      rw [if_neg (by omega), if_pos (by omega)]
      have e : (j : Nat) + 1 - 1 = j := by omega
      rw [e]
      split
      · next hj =>
        rw [hj]
        exact h2 v (List.mem_finRange v)
      · next hj =>
        obtain ⟨i, hi'⟩ : ∃ i : Nat, (j : Nat) = i + 1 := ⟨j - 1, by omega⟩
        have hlt : i < order := by omega
        rw [hi', h1 _ (fun w _ => Ne.symm (hsep.needed hi w v ⟨i, hlt⟩)), hheap]
        have := hnames v ⟨i, hlt⟩
        simp only at this
        rw [this]
        congr 1
    cases ha : h.allocate with
    | true =>
      have hd := hg.alloc hi ha
      have hsep : Separate h order s := by
        refine ⟨fun v w e => (hd v w 0 0 (by omega) (by omega) e).1, fun _ v w j e => ?_⟩
        have := (hd v w 0 (j + 1) (by omega) (by omega) e).2
        omega
      have hit : iteration h r s = { s with heap := assign h r.new s (List.finRange n) s.heap } := by
        simp [iteration, hi, ha]
      refine ⟨⟨fun _ _ => ?_, fun _ e => ?_, fun e => ?_⟩, ?_, ?_⟩
      · rw [hit]
        intro v w j k hj hk e
        simp only [update, hi, Bool.false_eq_true, if_false] at e
        by_cases h0 : j = 0 <;> by_cases h0' : k = 0
        · subst h0; subst h0'
          simp only [if_true] at e
          exact ⟨(hd _ _ _ _ (by omega) (by omega) e).1, rfl⟩
        · rw [if_pos h0, if_neg h0', if_pos hk] at e
          have := hd _ _ _ _ (by omega) (by omega) e
          omega
        · rw [if_neg h0, if_pos h0', if_pos hj] at e
          have := hd _ _ _ _ (by omega) (by omega) e
          omega
        · rw [if_neg h0, if_neg h0', if_pos hj, if_pos hk] at e
          have := hd _ _ _ _ (by omega) (by omega) e
          exact ⟨this.1, by omega⟩
      · rw [ha] at e; cases e
      · rw [hi] at e; cases e
      · rw [hit]; exact key s rfl (fun _ _ => rfl) hsep
      · rw [hit]; exact ⟨hsep.new, hsep.needed⟩
    | false =>
      have hold := hg.noalloc hi ha
      obtain ⟨s', hs'⟩ : ∃ s' : State V n, s' =
          State.mk s.heap (s.gen + 1) (fun v k => if k = 0 then .fresh s.gen v 0 else s.names v k) := ⟨_, rfl⟩
      have hsep : Separate h order s' := by
        subst hs'
        refine ⟨fun v w e => ?_, fun _ v w j e => ?_⟩
        · simp only [if_true, Buf.fresh.injEq, and_true, true_and] at e
          exact Fin.ext e
        · simp only [if_true, Nat.add_eq_zero_iff, Nat.one_ne_zero, and_false, if_false] at e
          have := hold w j
          rw [← e] at this
          simp [Old] at this
      have hit : iteration h r s = { s' with heap := assign h r.new s' (List.finRange n) s'.heap } := by
        simp only [iteration, hi, ha, hs', Bool.not_false, Bool.and_true, if_true]
      refine ⟨⟨fun _ e => ?_, fun _ _ => ?_, fun e => ?_⟩, ?_, ?_⟩
      · rw [ha] at e; cases e
      · rw [hit, hs']
        intro v j
        simp only [update, hi, Bool.false_eq_true, if_false, Nat.add_eq_zero_iff, Nat.one_ne_zero, and_false, Nat.add_sub_cancel]
        rw [if_pos (by omega)]
        split
        · simp [Old]
        · next hj =>
          have := hold v ⟨j - 1, by omega⟩
          have e : (j : Nat) - 1 + 1 = j := by omega
          simp only [e] at this
          cases hb : s.names v j with
          | user a => trivial
          | fresh g a b => rw [hb] at this; simp only [Old] at this ⊢; omega
      · rw [hi] at e; cases e
      · rw [hit]
        exact key s' (by rw [hs']) (fun v j => by simp [hs']) hsep
      · rw [hit]; exact ⟨hsep.new, hsep.needed⟩

/-! ### The initialization -/

/-- What always holds: the initial values given by the user are intact, unless they can be reused, and the new values are not
written in their buffers. -/
structure Intact (h : Handling) (r : Recurrence V n order) (x0 : Fin n → Fin order → V) (s : State V n) : Prop where
  values : ∀ v j, s.heap (.user (r.initial v j)) = x0 v j
  names : h.inplace = false → h.allocate = true → (∀ v, ∃ g a b, s.names v 0 = .fresh g a b) ∧ (∀ v, Old s.gen (s.names v 0)) ∧
    ∀ v w, s.names v 0 = s.names w 0 → v = w

/-- After the initialization, the variables have their initial values. -/
theorem setup_good (h : Handling) (r : Recurrence V n order) (hh : h.inplace = true → order = 1) (ha : r.Accepted h)
    (x0 : Fin n → Fin order → V) (s : State V n) (hs : Intact h r x0 s) :
    Good h order (setup h r s) ∧ window h order (setup h r s) = x0 := by
  constructor
  · refine ⟨fun hi hal => ?_, fun hi hal => ?_, fun hi => ?_⟩
    · obtain ⟨f1, f2, f3⟩ := hs.names hi hal
      have hsk : h.skip = 1 := by simp [Handling.skip, hi]
      have hnew : ∀ v, (setup h r s).names v 0 = s.names v 0 := by
        intro v; simp only [setup, hsk]; simp
      have hnm : ∀ v k, k < order → (setup h r s).names v (k + 1) =
          if h.copy then .fresh s.gen v k else if hk : k < order then .user (r.initial v ⟨k, hk⟩) else s.names v (k + 1) := by
        intro v k hk
        simp only [setup, hsk, Nat.add_sub_cancel]
        rw [if_neg (by omega), dif_pos hk, dif_pos hk]
      have hne : ∀ v w k, k < order → (setup h r s).names v 0 ≠ (setup h r s).names w (k + 1) := by
        intro v w k hk
        rw [hnew, hnm w k hk, dif_pos hk]
        obtain ⟨g, a, b, e⟩ := f1 v
        have := f2 v
        rw [e] at this ⊢
        simp only [Old] at this
        split
        · intro e'; simp only [Buf.fresh.injEq] at e'; omega
        · intro e'; cases e'
      intro v w j k hj hk e
      cases j with
      | zero =>
        cases k with
        | zero => rw [hnew, hnew] at e; exact ⟨f3 v w e, rfl⟩
        | succ k => exact absurd e (hne v w k (by omega))
      | succ j =>
        cases k with
        | zero => exact absurd e.symm (hne w v j (by omega))
        | succ k =>
          rw [hnm v j (by omega), hnm w k (by omega), dif_pos (by omega), dif_pos (by omega)] at e
          cases hc : h.copy with
          | true =>
            rw [hc, if_pos rfl, if_pos rfl, Buf.fresh.injEq] at e
            exact ⟨Fin.ext e.2.1, by omega⟩
          | false =>
            rw [hc] at e
            simp only [Bool.false_eq_true, if_false, Buf.user.injEq] at e
            have hr : h.reuse = true := by simpa [Handling.copy, hi, hal] using hc
            have := ha hr _ _ _ _ e
            simp only [Fin.mk.injEq] at this
            exact ⟨this.1, by omega⟩
    · intro v j
      have hsk : h.skip = 1 := by simp [Handling.skip, hi]
      have hc : h.copy = false := by simp [Handling.copy, hi, hal]
      simp only [setup, hsk, Nat.add_sub_cancel, hc]
      rw [if_neg (by omega), dif_pos j.isLt]
      trivial
    · have ho := hh hi
      subst ho
      intro v w e
      have hsk : h.skip = 0 := by simp [Handling.skip, hi]
      simp only [setup, hsk, Nat.not_lt_zero, if_false, Nat.sub_zero] at e
      rw [dif_pos (by omega), dif_pos (by omega)] at e
      cases hc : h.copy with
      | true =>
        rw [hc, if_pos rfl, if_pos rfl, Buf.fresh.injEq] at e
        exact Fin.ext e.2.1
      | false =>
        rw [hc] at e
        simp only [Bool.false_eq_true, if_false, Buf.user.injEq] at e
        have hr : h.reuse = true := by simpa [Handling.copy, hi] using hc
        exact (ha hr _ _ _ _ e).1
  · funext v j
    simp only [window, setup]
    rw [if_neg (by omega), dif_pos (by omega)]
    simp only [Nat.add_sub_cancel]
    cases hc : h.copy with
    | true =>
      simp only [if_true, v.isLt, j.isLt, dite_true, decide_true, Bool.and_true, hs.values]
    | false =>
      simp only [Bool.false_eq_true, if_false, hs.values]

/-- C38: when the n-th iteration begins, the variables x, x_old, x_old2, ... hold the last values u of the recurrence, in order, and the
new values will not be written in a buffer that holds one of them. -/
theorem C38_window (h : Handling) (r : Recurrence V n order) (hi : h.inplace = false) (ha : r.Accepted h)
    (x0 : Fin n → Fin order → V) (s : State V n) (hs : Intact h r x0 s) (u : Nat → Fin n → V)
    (h0 : ∀ v (j : Fin order), u (order - 1 - j) v = x0 v j)
    (hu : ∀ t v, u (t + order) v = r.new v (fun w j => u (t + order - 1 - j) w)) (k : Nat) :
    (∀ v (j : Fin order), window h order ((algo h r).after ⟨order - 1, setup h r s⟩ k).state v j = u (k + order - 1 - j) v) ∧
      Separate h order (iteration h r ((algo h r).after ⟨order - 1, setup h r s⟩ k).state) := by
  have hh : h.inplace = true → order = 1 := by rw [hi]; intro e; cases e
  have inv : ∀ k, Good h order ((algo h r).after ⟨order - 1, setup h r s⟩ k).state ∧
      ∀ v (j : Fin order), window h order ((algo h r).after ⟨order - 1, setup h r s⟩ k).state v j = u (k + order - 1 - j) v := by
    intro k
    induction k with
    | zero =>
      obtain ⟨h1, h2⟩ := setup_good h r hh ha x0 s hs
      refine ⟨h1, fun v j => ?_⟩
      have e : ((algo h r).after ⟨order - 1, setup h r s⟩ 0).state = setup h r s := rfl
      rw [e, h2, ← h0]
      congr 1
      omega
    | succ k ih =>
      obtain ⟨h1, h2, -⟩ := iteration_update h r hh _ ih.1
      have e : ((algo h r).after ⟨order - 1, setup h r s⟩ (k + 1)).state =
          update h order (iteration h r ((algo h r).after ⟨order - 1, setup h r s⟩ k).state) := by
        rw [after_add]; rfl
      rw [e]
      refine ⟨h1, fun v j => ?_⟩
      rw [h2]
      simp only [shifted, hi, Bool.false_eq_true, if_false]
      split
      · next hj =>
        have e1 : window h order ((algo h r).after ⟨order - 1, setup h r s⟩ k).state =
            fun w (j : Fin order) => u (k + order - 1 - j) w := by
          funext w j; exact ih.2 w j
        rw [e1, ← hu]
        congr 1
        have := j.isLt
        omega
      · next hj =>
        rw [ih.2]
        congr 1
        have := j.isLt
        simp only
        omega
  exact ⟨(inv k).2, (iteration_update h r hh _ (inv k).1).2.2⟩

/-- C38: in place, the variables hold the last values. -/
theorem C38_inplace (h : Handling) (r : Recurrence V n 1) (hi : h.inplace = true) (ha : r.Accepted h)
    (x0 : Fin n → Fin 1 → V) (s : State V n) (hs : Intact h r x0 s) (k : Nat) :
    window h 1 ((algo h r).after ⟨0, setup h r s⟩ k).state = (sequential r.new (List.finRange n))^[k] x0 := by
  have hh : h.inplace = true → (1 : Nat) = 1 := fun _ => rfl
  have inv : ∀ k, Good h 1 ((algo h r).after ⟨0, setup h r s⟩ k).state ∧
      window h 1 ((algo h r).after ⟨0, setup h r s⟩ k).state = (sequential r.new (List.finRange n))^[k] x0 := by
    intro k
    induction k with
    | zero => exact setup_good h r hh ha x0 s hs
    | succ k ih =>
      obtain ⟨h1, h2, -⟩ := iteration_update h r hh _ ih.1
      have e : ((algo h r).after ⟨0, setup h r s⟩ (k + 1)).state =
          update h 1 (iteration h r ((algo h r).after ⟨0, setup h r s⟩ k).state) := by
        rw [after_add]; rfl
      rw [e, Function.iterate_succ_apply', ← ih.2]
      refine ⟨h1, ?_⟩
      rw [h2]
      simp only [shifted, hi, if_true]
  exact (inv k).2

end Verif.Iter
