import Verif.Iter.Buffers
import Mathlib.Data.Nat.Fib.Basic

/- Property C38: the initial values are kept, so that an algorithm can be restarted (C39). -/

namespace Verif.Iter

variable {V : Type} {n order : Nat}

/-- A buffer of the algorithm, allocated before. -/
def FreshOld (g : Nat) (b : Buf) : Prop := ∃ g' v j, b = .fresh g' v j ∧ g' < g

/-- The initial values of the user are intact, and the names of the variables refer to buffers of the algorithm. -/
structure Kept (h : Handling) (r : Recurrence V n order) (x0 : Fin n → Fin order → V) (s : State V n) : Prop where
  values : ∀ v j, s.heap (.user (r.initial v j)) = x0 v j
  names : h.inplace = false → h.allocate = true → ∀ v j, j ≤ order → FreshOld s.gen (s.names v j)
  distinct : h.inplace = false → h.allocate = true → Distinct order s
  inplace : h.inplace = true → ∀ v, FreshOld s.gen (s.names v 0)

theorem Kept.intact {h : Handling} {r : Recurrence V n order} {x0 : Fin n → Fin order → V} {s : State V n} (k : Kept h r x0 s) :
    Intact h r x0 s := by
  refine ⟨k.values, fun hi ha => ⟨fun v => ?_, fun v => ?_, fun v w e => ?_⟩⟩
  · obtain ⟨g, a, b, e, _⟩ := k.names hi ha v 0 (by omega)
    exact ⟨g, a, b, e⟩
  · obtain ⟨g, a, b, e, hl⟩ := k.names hi ha v 0 (by omega)
    rw [e]; exact hl
  · exact (k.distinct hi ha v w 0 0 (by omega) (by omega) e).1

theorem FreshOld.mono {g g' : Nat} {b : Buf} (h : FreshOld g b) (hg : g ≤ g') : FreshOld g' b := by
  obtain ⟨a, v, j, e, hl⟩ := h
  exact ⟨a, v, j, e, by omega⟩

/-- The instance built from the user's initial values. -/
theorem kept_create (h : Handling) (r : Recurrence V n order) (x0 : Fin n → Fin order → V) (heap : Buf → V)
    (hv : ∀ v j, heap (.user (r.initial v j)) = x0 v j) : Kept h r x0 (create heap) := by
  refine ⟨hv, fun _ _ v j _ => ⟨0, v, j, rfl, by simp [create]⟩, fun _ _ v w j k _ _ e => ?_, fun _ v => ⟨0, v, 0, rfl, by simp [create]⟩⟩
  simp only [create, Buf.fresh.injEq, true_and] at e
  exact ⟨Fin.ext e.1, e.2⟩

theorem kept_setup {h : Handling} {r : Recurrence V n order} (hr : h.reuse = false) (hh : h.inplace = true → order = 1)
    {x0 : Fin n → Fin order → V} {s : State V n} (k : Kept h r x0 s) : Kept h r x0 (setup h r s) := by
  have hacc : r.Accepted h := by intro e; rw [hr] at e; cases e
  have hgood := setup_good h r hh hacc x0 s k.intact
  refine ⟨fun v j => ?_, fun hi ha v j hj => ?_, fun hi ha => hgood.1.alloc hi ha, fun hi v => ?_⟩
  · simp only [setup]; exact k.values v j
  · have hc : h.copy = true := by simp [Handling.copy, hr, ha]
    simp only [setup]
    split
    · exact (k.names hi ha v j hj).mono (by omega)
    · split
      · exact ⟨_, _, _, rfl, by omega⟩
      · exact (k.names hi ha v j hj).mono (by omega)
  · have hc : h.copy = true := by simp [Handling.copy, hr, hi]
    simp only [setup]
    split
    · exact (k.inplace hi v).mono (by omega)
    · split
      · exact ⟨_, _, _, rfl, by omega⟩
      · exact (k.inplace hi v).mono (by omega)

theorem assign_user (h : Handling) (f : Fin n → (Fin n → Fin order → V) → V) (s : State V n) (a : Nat)
    (hs : ∀ v, s.names v 0 ≠ .user a) (l : List (Fin n)) (heap : Buf → V) : assign h f s l heap (.user a) = heap (.user a) := by
  induction l generalizing heap with
  | nil => rfl
  | cons v l ih =>
    have e : assign h f s (v :: l) heap =
        assign h f s l (set heap (s.names v 0) (f v (window h order { s with heap := heap }))) := rfl
    rw [e, ih, set_other _ _ (Ne.symm (hs v))]

theorem kept_iteration {h : Handling} {r : Recurrence V n order} {x0 : Fin n → Fin order → V} {s : State V n} (k : Kept h r x0 s) :
    Kept h r x0 (iteration h r s) := by
  cases hi : h.inplace with
  | true =>
    have hit : iteration h r s = { s with heap := assign h r.new s (List.finRange n) s.heap } := by simp [iteration, hi]
    rw [hit]
    refine ⟨fun v j => ?_, fun e => ?_, fun e => ?_, fun _ v => k.inplace hi v⟩
    · simp only
      rw [assign_user, k.values]
      intro w
      obtain ⟨g, a, b, e, _⟩ := k.inplace hi w
      rw [e]; simp
    · rw [hi] at e; cases e
    · rw [hi] at e; cases e
  | false =>
    cases ha : h.allocate with
    | true =>
      have hit : iteration h r s = { s with heap := assign h r.new s (List.finRange n) s.heap } := by simp [iteration, hi, ha]
      rw [hit]
      refine ⟨fun v j => ?_, fun _ _ => k.names hi ha, fun _ _ => k.distinct hi ha, fun e => ?_⟩
      · simp only
        rw [assign_user, k.values]
        intro w
        obtain ⟨g, a, b, e, _⟩ := k.names hi ha w 0 (by omega)
        rw [e]; simp
      · rw [hi] at e; cases e
    | false =>
      obtain ⟨s', hs'⟩ : ∃ s' : State V n, s' =
          State.mk s.heap (s.gen + 1) (fun v k => if k = 0 then .fresh s.gen v 0 else s.names v k) := ⟨_, rfl⟩
      have hit : iteration h r s = { s' with heap := assign h r.new s' (List.finRange n) s'.heap } := by
        simp only [iteration, hi, ha, hs', Bool.not_false, Bool.and_true, if_true]
      rw [hit]
      refine ⟨fun v j => ?_, fun _ e => ?_, fun _ e => ?_, fun e => ?_⟩
      · simp only
        rw [assign_user, hs']
        · exact k.values v j
        · intro w; rw [hs']; simp
      · rw [ha] at e; cases e
      · rw [ha] at e; cases e
      · rw [hi] at e; cases e

theorem kept_update {h : Handling} {r : Recurrence V n order} {x0 : Fin n → Fin order → V} {s : State V n} (k : Kept h r x0 s) :
    Kept h r x0 (update h order s) := by
  cases hi : h.inplace with
  | true => simp only [update, hi, if_true]; exact k
  | false =>
    simp only [update, hi, Bool.false_eq_true, if_false]
    refine ⟨k.values, fun _ ha v j hj => ?_, fun _ ha v w j l hj hl e => ?_, fun e => ?_⟩
    · simp only
      split
      · exact k.names hi ha v order (by omega)
      · exact k.names hi ha v (j - 1) (by omega)
    · have hd := k.distinct hi ha
      simp only at e
      by_cases h0 : j = 0 <;> by_cases h0' : l = 0
      · rw [if_pos h0, if_pos h0'] at e
        exact ⟨(hd _ _ _ _ (by omega) (by omega) e).1, by omega⟩
      · rw [if_pos h0, if_neg h0', if_pos hl] at e
        have := hd _ _ _ _ (by omega) (by omega) e
        omega
      · rw [if_neg h0, if_pos h0', if_pos hj] at e
        have := hd _ _ _ _ (by omega) (by omega) e
        omega
      · rw [if_neg h0, if_neg h0', if_pos hj, if_pos hl] at e
        have := hd _ _ _ _ (by omega) (by omega) e
        exact ⟨this.1, by omega⟩
    · rw [hi] at e; cases e

/-! ### Runs -/

/-- The states of an algorithm, `after` which the variables are up to date: all but the one left by an iteration that raises
AbnormalStopIteration. -/
theorem step_kept {h : Handling} {r : Recurrence V n order} {x0 : Fin n → Fin order → V} {i : Inst (State V n)}
    (k : Kept h r x0 i.state) : Kept h r x0 ((algo h r).step i).1.state := by
  simp only [Algo.step]
  split
  · exact k
  · exact k
  · split
    all_goals (rename_i hs; simp only [algo, Prod.mk.injEq] at hs; obtain ⟨rfl, -⟩ := hs)
    · exact kept_update (kept_iteration k)
    · exact kept_update (kept_iteration k)
    · exact kept_iteration k

theorem loop_kept {h : Handling} {r : Recurrence V n order} {x0 : Fin n → Fin order → V} (m : Nat) {i : Inst (State V n)}
    (k : Kept h r x0 i.state) : Kept h r x0 ((algo h r).loop m i).1.state := by
  induction m generalizing i with
  | zero => exact k
  | succ m ih =>
    have := step_kept k
    simp only [Algo.loop]
    split
    · next j e => rw [e] at this; exact ih this
    · exact this

theorem next_kept {h : Handling} {r : Recurrence V n order} (hr : h.reuse = false) (hh : h.inplace = true → order = 1)
    {x0 : Fin n → Fin order → V} (m : Nat) {i : Inst (State V n)} (k : Kept h r x0 i.state) :
    Kept h r x0 ((algo h r).next m i).1.state := by
  simp only [Algo.next]
  split
  · next hn =>
    have : (algo h r).init i = some (⟨order - 1, setup h r i.state⟩, .go) := by
      simp only [Algo.init, algo, hr, Bool.and_false, Bool.false_eq_true, if_false]
    rw [this]
    exact loop_kept m (i := ⟨order - 1, setup h r i.state⟩) (kept_setup hr hh k)
  · exact loop_kept m k

theorem run_kept {h : Handling} {r : Recurrence V n order} (hr : h.reuse = false) (hh : h.inplace = true → order = 1)
    {x0 : Fin n → Fin order → V} (m : Option Nat) {i : Inst (State V n)} (k : Kept h r x0 i.state) :
    Kept h r x0 ((algo h r).run m i).1.state := by
  simp only [Algo.run]
  split
  · exact k
  · rw [catch_fst]; exact next_kept hr hh _ k

theorem calls_kept {h : Handling} {r : Recurrence V n order} (hr : h.reuse = false) (hh : h.inplace = true → order = 1)
    {x0 : Fin n → Fin order → V} (calls : List Call) {i : Inst (State V n)} (k : Kept h r x0 i.state) :
    Kept h r x0 (calls.foldl (fun i q => ((algo h r).call i q).1) i).state := by
  induction calls generalizing i with
  | nil => exact k
  | cons q calls ih =>
    refine ih ?_
    cases q with
    | next m => exact next_kept hr hh m k
    | run m => exact run_kept hr hh m k
    | cont =>
      simp only [Algo.call, Algo.cont]
      split
      · exact k
      · rw [catch_fst]; exact next_kept hr hh _ k
    | restart m =>
      have : (algo h r).init i = some (⟨order - 1, setup h r i.state⟩, .go) := by
        simp only [Algo.init, algo, hr, Bool.and_false, Bool.false_eq_true, if_false]
      simp only [Algo.call, Algo.restart, this]
      exact run_kept hr hh m (i := ⟨order - 1, setup h r i.state⟩) (kept_setup hr hh k)

/-- C38: unless they can be reused, the user's initial values are never modified, whatever the calls. -/
theorem C38_initial (h : Handling) (r : Recurrence V n order) (hr : h.reuse = false) (hh : h.inplace = true → order = 1)
    (x0 : Fin n → Fin order → V) (heap : Buf → V) (hv : ∀ v j, heap (.user (r.initial v j)) = x0 v j) (calls : List Call)
    (v : Fin n) (j : Fin order) :
    (calls.foldl (fun i q => ((algo h r).call i q).1) ⟨order - 1, create heap⟩).state.heap (.user (r.initial v j)) = x0 v j := by
  exact (calls_kept hr hh calls (kept_create h r x0 heap hv)).values v j

/-- The variables have the same values. -/
def SameValues (h : Handling) (order : Nat) (s s' : State V n) : Prop := window h order s = window h order s'

/-- The variables have the same values when an iteration begins. -/
def SameState (h : Handling) (order : Nat) (s s' : State V n) : Prop :=
  Good h order s ∧ Good h order s' ∧ SameValues h order s s'

/-- Before `_update_variables`, the values of the variables have not changed, except in place. -/
theorem iteration_window (h : Handling) (r : Recurrence V n order) (hh : h.inplace = true → order = 1) (s : State V n) (hg : Good h order s) :
    window h order (iteration h r s) =
      if h.inplace then sequential r.new (List.finRange n) (window h order s) else window h order s := by
  cases hi : h.inplace with
  | true =>
    have := (iteration_update h r hh s hg).2.1
    simp only [update, hi, if_true, shifted] at this
    simpa using this
  | false =>
    have hsep := (iteration_update h r hh s hg).2.2
    simp only [Bool.false_eq_true, if_false]
    obtain ⟨s', hs', hn, hit⟩ : ∃ s' : State V n, s'.heap = s.heap ∧ (∀ v (j : Fin order), s'.names v (j + 1) = s.names v (j + 1)) ∧
        iteration h r s = { s' with heap := assign h r.new s' (List.finRange n) s'.heap } := by
      cases ha : h.allocate with
      | true => exact ⟨s, rfl, fun _ _ => rfl, by simp [iteration, hi, ha]⟩
      | false =>
        refine ⟨State.mk s.heap (s.gen + 1) (fun v k => if k = 0 then .fresh s.gen v 0 else s.names v k), rfl, fun _ _ => by simp, ?_⟩
        simp only [iteration, hi, ha, Bool.not_false, Bool.and_true, if_true]
    rw [hit] at hsep ⊢
    have hsep' : Separate h order s' := ⟨hsep.new, hsep.needed⟩
    funext v j
    simp only [window, Handling.skip, hi, Bool.false_eq_true, if_false]
    rw [(fold_new h hi r.new s' hsep' (List.finRange n) (List.nodup_finRange n) s'.heap rfl).1 _
      (fun w _ => Ne.symm (hsep'.needed hi w v j)), hs', hn]

/-- C38: the algorithm cannot tell apart two states in which the variables have the same values, and the initialization always gives the
variables their initial values, unless the buffers of the initial values are reused. -/
theorem C38_equivalent (h : Handling) (r : Recurrence V n order) (hr : h.reuse = false) (hh : h.inplace = true → order = 1)
    (x0 : Fin n → Fin order → V) : Equivalent (algo h r) (Kept h r x0) (SameState h order) (SameValues h order) := by
  have hacc : r.Accepted h := by intro e; rw [hr] at e; cases e
  refine ⟨fun s k => kept_setup hr hh k, fun s s' k k' => ?_, fun s s' hs => ?_, fun m s s' hs => ?_, fun s s' hs => hs.2.2⟩
  · obtain ⟨g1, w1⟩ := setup_good h r hh hacc x0 s k.intact
    obtain ⟨g2, w2⟩ := setup_good h r hh hacc x0 s' k'.intact
    exact ⟨⟨g1, g2, w1.trans w2.symm⟩, rfl⟩
  · obtain ⟨g1, g2, e⟩ := hs
    obtain ⟨a1, b1, -⟩ := iteration_update h r hh s g1
    obtain ⟨a2, b2, -⟩ := iteration_update h r hh s' g2
    simp only [SameValues] at e
    refine ⟨by simp only [algo, e], ⟨a1, a2, ?_⟩, ?_⟩
    · simp only [SameValues, algo, b1, b2, e]
    · simp only [SameValues, algo, iteration_window h r hh _ g1, iteration_window h r hh _ g2, e]
  · have e : window h order s = window h order s' := hs.2.2
    exact ⟨by simp only [algo, e], by simp only [algo, e]⟩

/-- C39: after any sequence of calls, restarting a recurrence gives what its first run gives. -/
theorem C39_restart_recurrence (h : Handling) (r : Recurrence V n order) (hr : h.reuse = false) (hh : h.inplace = true → order = 1)
    (heap : Buf → V) (calls : List Call) (m : Option Nat) :
    LikeResult (SameValues h order) ((algo h r).restart m (calls.foldl (fun i q => ((algo h r).call i q).1) ⟨order - 1, create heap⟩))
      ((algo h r).run m ⟨order - 1, create heap⟩) := by
  have k0 := kept_create h r (fun v j => heap (.user (r.initial v j))) heap (fun _ _ => rfl)
  exact C39_restart_partial (C38_equivalent h r hr hh _) hr _ _ (calls_kept hr hh calls k0) k0 rfl (by simp [algo]) m

/-- C38: an algorithm can be restarted, and its initial values are never modified, unless reuse_initial_state is true and the recursion is
in place or the new state is allocated.  Otherwise it cannot be restarted after the first iteration. -/
theorem C38_arguments (inplace allocate reuse : Bool) (r : Recurrence V n order) (ho : inplace = true → order = 1) (heap : Buf → V)
    (calls : List Call) (m : Option Nat) :
    (reuse = false ∨ (inplace = false ∧ allocate = false) →
      let h := setBufferHandling inplace allocate reuse
      let i := calls.foldl (fun i q => ((algo h r).call i q).1) ⟨order - 1, create heap⟩
      (∀ v j, i.state.heap (.user (r.initial v j)) = heap (.user (r.initial v j))) ∧
        LikeResult (SameValues h order) ((algo h r).restart m i) ((algo h r).run m ⟨order - 1, create heap⟩)) ∧
    (reuse = true → inplace = true ∨ allocate = true → ∀ i : Inst (State V n), order - 1 < i.niterations →
      (algo (setBufferHandling inplace allocate reuse) r).restart m i = (i, .runtimeError)) := by
  constructor
  · intro hr
    have h1 : (setBufferHandling inplace allocate reuse).reuse = false := by
      rcases hr with rfl | ⟨rfl, rfl⟩
      · cases inplace <;> cases allocate <;> rfl
      · rfl
    have h2 : (setBufferHandling inplace allocate reuse).inplace = true → order = 1 := by
      cases inplace
      · cases allocate <;> intro e <;> cases e
      · exact fun _ => ho rfl
    exact ⟨fun v j => C38_initial _ r h1 h2 (fun v j => heap (.user (r.initial v j))) heap (fun _ _ => rfl) calls v j,
      C39_restart_recurrence _ r h1 h2 heap calls m⟩
  · rintro rfl ha i hi
    have h1 : (setBufferHandling inplace allocate true).reuse = true := by
      rcases ha with rfl | rfl
      · rfl
      · cases inplace <;> rfl
    have : (algo (setBufferHandling inplace allocate true) r).init i = none := by
      simp only [Algo.init, algo, h1, Bool.and_true, decide_eq_true_eq]
      rw [if_pos hi]
    simp only [Algo.restart, this]

/-! ### Examples -/

example : ((algo (setBufferHandling false true true) (⟨fun _ w => w 0 0 + 1, fun _ => .go, fun _ j => j, (Cond.maxIteration 5).holds,
    fun _ _ => false⟩ : Recurrence Int 1 1)).restart none ⟨3, create fun _ => 0⟩).2 = .runtimeError :=
  congrArg Prod.snd ((C38_arguments false true true _ (by intro e; cases e) (fun _ => 0) [] none).2 rfl (Or.inr rfl) ⟨3, create fun _ => 0⟩ (by decide))

/-- The Fibonacci sequence: x_new = x + x_old. -/
def fibonacci : Recurrence Int 1 2 :=
  { new := fun _ w => w 0 0 + w 0 1, signal := fun _ => .go, initial := fun _ j => j, normal := (Cond.maxIteration 5).holds,
    abnormal := fun _ _ => false }

def ones : Buf → Int := fun b => if b = .user 0 ∨ b = .user 1 then 1 else 0

/-- The three out of place schemes. -/
example : ∀ h ∈ [setBufferHandling false true true, setBufferHandling false true false, setBufferHandling false false false],
    window h 2 ((algo h fibonacci).run none ⟨1, create ones⟩).1.state 0 0 = 8 ∧
    window h 2 ((algo h fibonacci).run none ⟨1, create ones⟩).1.state 0 1 = 5 := by decide

/-- The initial values are overwritten if they are reused. -/
example : ((algo (setBufferHandling false true true) fibonacci).run none ⟨1, create ones⟩).1.state.heap (.user 0) ≠ 1 := by decide
example : ((algo (setBufferHandling false true false) fibonacci).run none ⟨1, create ones⟩).1.state.heap (.user 0) = 1 := by decide

example (k : Nat) : ∀ v j, window (setBufferHandling false true false) 2
    ((algo (setBufferHandling false true false) fibonacci).after ⟨1, setup (setBufferHandling false true false) fibonacci (create ones)⟩ k).state
      v j = Nat.fib (k + 2 - 1 - j + 1) := by
  have h := (C38_window (setBufferHandling false true false) fibonacci rfl (by intro e; cases e) (fun _ _ => 1) (create ones)
    (kept_create _ _ _ _ (by decide)).intact (fun t _ => (Nat.fib (t + 1) : Int)) (by decide)
    (fun t v => by
      show ((Nat.fib (t + 2 + 1) : Nat) : Int) = Nat.fib (t + 2 - 1 - 0 + 1) + Nat.fib (t + 2 - 1 - 1 + 1)
      rw [Nat.fib_add_two]; push_cast; simp [Int.add_comm]) k).1
  exact h

end Verif.Iter
