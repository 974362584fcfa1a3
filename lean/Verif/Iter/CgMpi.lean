import Verif.Iter.Cg

/-
Model of the preconditioned conjugate gradient on several MPI processes: src/pyoperators/iterative/cg.py:14-155 (`PCGAlgorithm`) with the sums over
the processes of `_norm2` and `_dot` (251-264), in exact arithmetic, the function `pcg` (163-248), and property C106.
-/

namespace Verif.CgMpi

open Verif.Iter

variable {P : Nat} {n : Fin P → Nat}

/-! ### Model -/

/-- The array of a process. -/
abbrev Local (n : Fin P → Nat) (p : Fin P) := EuclideanSpace ℝ (Fin (n p))

/-- An array distributed over the processes: the process p has n p elements. -/
abbrev Vec (n : Fin P → Nat) := PiLp 2 (Local n)

/-- The parts of the processes as one distributed array. -/
def gather (x : ∀ p, Local n p) : Vec n := WithLp.toLp 2 x

/-- `comm.Allreduce(MPI.IN_PLACE, n)`: every process receives the sum of the numbers of the processes. -/
noncomputable def allreduce (v : Fin P → ℝ) : Fin P → ℝ := fun _ => ∑ p, v p

/-- `_dot(x, y, comm)`, and `_norm2(x, comm)` for y = x: src/pyoperators/iterative/cg.py:251-264.  The number of each process. -/
noncomputable def dots (x y : ∀ p, Local n p) : Fin P → ℝ := allreduce fun p => ∑ i, x p i * y p i

/-- The operators, which are called by all the processes: each one gives its part of the input and receives its part of the output.  The right-hand
side and the initial guess are distributed.  The tolerance and the maximum number of iterations are the same for all the processes. -/
structure Problem (n : Fin P → Nat) where
  A : Vec n →ₗ[ℝ] Vec n
  M : Vec n →ₗ[ℝ] Vec n
  b : ∀ p, Local n p
  x0 : ∀ p, Local n p
  tol : ℝ
  maxiter : Nat

/-- The attributes of the processes. -/
abbrev States (n : Fin P → Nat) := ∀ p, PcgState (Local n p)

open Classical in
/-- The value of a condition that the processes evaluate before an action in which all of them must take part.  If it is not the same for all the
processes, some of them wait for ever for the others: `none`. -/
noncomputable def uniform (c : Fin P → Prop) : Option Bool :=
  if ∀ p, c p then some true else if ∀ p, ¬ c p then some false else none

/-- The errors of the processes: src/pyoperators/iterative/cg.py:135 and 146. -/
noncomputable def Problem.errors (q : Problem n) (r : ∀ p, Local n p) : Fin P → ℝ := fun p => Real.sqrt (dots r r p / dots q.b q.b p)

/-- `initialize`: src/pyoperators/iterative/cg.py:125-139, executed by all the processes. -/
noncomputable def Problem.setup (q : Problem n) (st : States n) : Option (States n × Signal) :=
  (uniform fun p => dots q.b q.b p = 0).bind fun
    | true => some (fun p => { st p with x := 0, error := 0 }, .stop)
    | false =>
      let r : ∀ p, Local n p := fun p => q.b p - q.A (gather q.x0) p
      let error := q.errors r
      (uniform fun p => error p < q.tol).map fun
        | true => (fun p => { st p with x := q.x0 p, r := r p, error := error p }, .stop)
        | false =>
          let d : ∀ p, Local n p := fun p => q.M (gather r) p
          let delta := dots r d
          (fun p => { x := q.x0 p, r := r p, d := d p, delta := delta p, error := error p }, .go)

/-- `iteration`: src/pyoperators/iterative/cg.py:141-155, executed by all the processes. -/
noncomputable def Problem.iteration (q : Problem n) (st : States n) : Option (States n × Signal) :=
  let d : ∀ p, Local n p := fun p => (st p).d
  let Ad : ∀ p, Local n p := fun p => q.A (gather d) p
  let dAd := dots d Ad
  let alpha : Fin P → ℝ := fun p => (st p).delta / dAd p
  let x : ∀ p, Local n p := fun p => (st p).x + alpha p • d p
  let r : ∀ p, Local n p := fun p => (st p).r - alpha p • Ad p
  let error := q.errors r
  (uniform fun p => error p < q.tol).map fun
    | true => (fun p => { st p with x := x p, r := r p, error := error p }, .stop)
    | false =>
      let s : ∀ p, Local n p := fun p => q.M (gather r) p
      let delta := dots r s
      let beta : Fin P → ℝ := fun p => delta p / (st p).delta
      (fun p => { x := x p, r := r p, d := beta p • d p + s p, delta := delta p, error := error p }, .go)

/-- The loop of `next`: src/pyoperators/iterative/core.py:227-240, executed by all the processes, which have done the same number of iterations. -/
noncomputable def Problem.loop (q : Problem n) : Nat → Nat → States n → Option (Nat × States n × Signal)
  | 0, k, st => some (k, st, .go)
  | m + 1, k, st =>
    if k = q.maxiter then some (k, st, .abnormal)
    else
      (q.iteration st).bind fun
        | (st', .go) => q.loop m (k + 1) st'
        | (st', g) => some (k + 1, st', g)

/-- What the function `pcg` returns, apart from the elapsed time and the instance: src/pyoperators/iterative/cg.py:239-248. -/
structure Output (X : Type) where
  x : X
  success : Bool
  nit : Nat
  error : ℝ

/-- `pcg(A, b, x0=..., tol=..., maxiter=..., M=...)`: src/pyoperators/iterative/cg.py:217-248, executed by all the processes.  `run` returns the
solution if `StopIteration` is raised or if the loop ends (src/pyoperators/iterative/core.py:261-275), and otherwise the solution is that of
`finalize`.  `st` are the values of the buffers when they are allocated.  `none` if the processes wait for ever. -/
noncomputable def Problem.pcg (q : Problem n) (st : States n) : Option (∀ p, Output (Local n p)) :=
  (q.setup st).bind fun
    | (st', .go) => (q.loop maxInt 0 st').map fun
      | (k, st'', g) => fun p => ⟨(st'' p).x, g ≠ .abnormal, k, (st'' p).error⟩
    | (st', _) => some fun p => ⟨(st' p).x, true, 0, (st' p).error⟩

/-! ### The processes compute what one process computes -/

/-- The problem for one process that has all the elements. -/
def Problem.whole (q : Problem n) : Pcg (Vec n) := ⟨q.A, gather q.b, gather q.x0, q.tol, q.maxiter, q.M⟩

/-- The parts of the attributes. -/
def parts (s : PcgState (Vec n)) : States n := fun p => ⟨s.x p, s.r p, s.d p, s.delta, s.error⟩

theorem dots_eq (x y : Vec n) (p : Fin P) : dots (fun p => x p) (fun p => y p) p = dot x y := by
  simp only [dots, allreduce, dot, PiLp.inner_apply]
  refine Finset.sum_congr rfl fun p _ => Finset.sum_congr rfl fun i _ => ?_
  simp [mul_comm]

theorem gather_parts (x : Vec n) : gather (fun p => x p) = x := rfl

theorem uniform_const [NeZero P] (c : Prop) [Decidable c] : uniform (fun _ : Fin P => c) = some (decide c) := by
  have : ∃ _ : Fin P, True := ⟨⟨0, Nat.pos_of_ne_zero (NeZero.ne P)⟩, trivial⟩
  by_cases h : c <;> simp [uniform, h]


theorem errors_eq (q : Problem n) (r : Vec n) (p : Fin P) : q.errors (fun p => r p) p = q.whole.errorOf r := by
  rw [Problem.errors, Pcg.errorOf, dots_eq]
  congr 2

theorem setup_parts [NeZero P] (q : Problem n) (s : PcgState (Vec n)) :
    q.setup (parts s) = some (parts (q.whole.setup s).1, (q.whole.setup s).2) := by
  classical
  have hb : (fun p => dots q.b q.b p = 0) = fun _ : Fin P => dot q.whole.b q.whole.b = 0 :=
    funext fun p => congrArg (· = 0) (dots_eq (gather q.b) (gather q.b) p)
  rw [Problem.setup, hb, uniform_const]
  by_cases h0 : dot q.whole.b q.whole.b = 0
  · simp only [h0, decide_true, Option.bind_some, Pcg.setup, if_true]
    rfl
  · have he : ∀ p, q.errors (fun p => q.b p - q.A (gather q.x0) p) p = q.whole.errorOf (q.whole.b - q.whole.A q.whole.x0) :=
      fun p => errors_eq q (gather q.b - q.A (gather q.x0)) p
    simp only [h0, decide_false, Option.bind_some, Pcg.setup, if_false, he, uniform_const]
    by_cases h1 : q.whole.errorOf (q.whole.b - q.whole.A q.whole.x0) < q.whole.tol
    · have h1' : q.whole.errorOf (q.whole.b - q.whole.A q.whole.x0) < q.tol := h1
      simp only [h1, h1', decide_true, Option.map_some, if_true]
      rfl
    · have h1' : ¬ q.whole.errorOf (q.whole.b - q.whole.A q.whole.x0) < q.tol := h1
      simp only [h1, h1', decide_false, Option.map_some, if_false]
      congr 2
      funext p
      simp only [parts, PcgState.mk.injEq]
      exact ⟨rfl, rfl, rfl, dots_eq (gather q.b - q.A (gather q.x0)) (q.M (gather q.b - q.A (gather q.x0))) p, trivial⟩

theorem iteration_parts [NeZero P] (q : Problem n) (s : PcgState (Vec n)) :
    q.iteration (parts s) = some (parts (q.whole.iteration s).1, (q.whole.iteration s).2) := by
  classical
  have ha : ∀ p, dots (fun p => (parts s p).d) (fun p => q.A (gather fun p => (parts s p).d) p) p = dot s.d (q.whole.A s.d) :=
    fun p => dots_eq s.d (q.A s.d) p
  simp only [Problem.iteration, Pcg.iteration, ha]
  have he : ∀ p, q.errors (fun p => (parts s p).r - ((parts s p).delta / dot s.d (q.whole.A s.d)) • q.A (gather fun p => (parts s p).d) p) p =
      q.whole.errorOf (s.r - (s.delta / dot s.d (q.whole.A s.d)) • q.whole.A s.d) :=
    fun p => errors_eq q (s.r - (s.delta / dot s.d (q.whole.A s.d)) • q.A s.d) p
  simp only [he, uniform_const]
  have hd : ∀ p, dots (fun p => (parts s p).r - ((parts s p).delta / dot s.d (q.whole.A s.d)) • q.A (gather fun p => (parts s p).d) p)
      (fun p => q.M (gather fun p => (parts s p).r - ((parts s p).delta / dot s.d (q.whole.A s.d)) • q.A (gather fun p => (parts s p).d) p) p) p =
      dot (s.r - (s.delta / dot s.d (q.whole.A s.d)) • q.whole.A s.d)
        (q.whole.M (s.r - (s.delta / dot s.d (q.whole.A s.d)) • q.whole.A s.d)) :=
    fun p => dots_eq (s.r - (s.delta / dot s.d (q.whole.A s.d)) • q.A s.d) (q.M (s.r - (s.delta / dot s.d (q.whole.A s.d)) • q.A s.d)) p
  by_cases h1 : q.whole.errorOf (s.r - (s.delta / dot s.d (q.whole.A s.d)) • q.whole.A s.d) < q.whole.tol
  · have h1' : q.whole.errorOf (s.r - (s.delta / dot s.d (q.whole.A s.d)) • q.whole.A s.d) < q.tol := h1
    simp only [h1, h1', decide_true, Option.map_some, if_true]
    rfl
  · have h1' : ¬ q.whole.errorOf (s.r - (s.delta / dot s.d (q.whole.A s.d)) • q.whole.A s.d) < q.tol := h1
    simp only [h1, h1', decide_false, Option.map_some, if_false, hd]
    rfl

theorem loop_parts [NeZero P] (q : Problem n) (m k : Nat) (s : PcgState (Vec n)) : q.loop m k (parts s) =
    some ((q.whole.algo.loop m ⟨k, s⟩).1.niterations, parts (q.whole.algo.loop m ⟨k, s⟩).1.state, (q.whole.algo.loop m ⟨k, s⟩).2) := by
  induction m generalizing k s with
  | zero => rfl
  | succ m ih =>
    rw [Problem.loop, Algo.loop, Algo.step, Algo.check]
    have hn : q.whole.algo.normal k s = false := rfl
    have ha : q.whole.algo.abnormal k s = (k == q.maxiter) := rfl
    simp only [hn, ha, Bool.false_eq_true, if_false]
    by_cases hk : k = q.maxiter
    · simp [hk]
    · have hk' : (k == q.maxiter) = false := by simp [hk]
      simp only [hk, hk', if_false, Bool.false_eq_true, iteration_parts, Option.bind_some]
      have hi : q.whole.algo.iteration s = q.whole.iteration s := rfl
      have hu : ∀ s, q.whole.algo.update s = s := fun _ => rfl
      rw [hi]
      rcases q.whole.iteration s with ⟨s', g⟩
      cases g
      · exact ih (k + 1) s'
      · rfl
      · rfl

theorem pcg_buffers (q : Problem n) (st st' : States n) : q.pcg st = q.pcg st' := by
  simp only [Problem.pcg, Problem.setup]
  rcases uniform (fun p => dots q.b q.b p = 0) with _ | _ | _
  · rfl
  · simp only [Option.bind_some]
    rcases uniform (fun p => q.errors (fun p => q.b p - q.A (gather q.x0) p) p < q.tol) with _ | _ | _ <;> rfl
  · rfl

theorem finish (r : Inst (PcgState (Vec n)) × Signal) :
    (fun p => (⟨(parts r.1.state p).x, r.2 ≠ .abnormal, r.1.niterations, (parts r.1.state p).error⟩ : Output (Local n p))) = fun p =>
      ⟨(catchStop (r.1, r.2.raised)).1.state.x p, (catchStop (r.1, r.2.raised)).2 = .returned, (catchStop (r.1, r.2.raised)).1.niterations,
        (catchStop (r.1, r.2.raised)).1.state.error⟩ := by
  rcases r with ⟨j, g⟩
  cases g <;> rfl

/-- **C106** On any number of processes, whatever the distribution of the elements, `pcg` returns on every process its part of the solution that is
computed by a single process, with the same number of iterations, error and success; no process waits for ever. -/
theorem C106_processes [NeZero P] (q : Problem n) (st : States n) (s : PcgState (Vec n)) : q.pcg st = some fun p =>
    ⟨(q.whole.algo.run none ⟨0, s⟩).1.state.x p, (q.whole.algo.run none ⟨0, s⟩).2 = .returned, (q.whole.algo.run none ⟨0, s⟩).1.niterations,
      (q.whole.algo.run none ⟨0, s⟩).1.state.error⟩ := by
  rw [pcg_buffers q st (parts s)]
  have hrun : q.whole.algo.run none ⟨0, s⟩ = catchStop (q.whole.algo.next maxInt ⟨0, s⟩) := rfl
  have hinit : q.whole.algo.init ⟨0, s⟩ = some (⟨0, (q.whole.setup s).1⟩, (q.whole.setup s).2) := rfl
  have h0 : (⟨0, s⟩ : Inst (PcgState (Vec n))).niterations = q.whole.algo.order - 1 := rfl
  have hg : (q.whole.setup s).2 ≠ .abnormal := by
    simp only [Pcg.setup]
    split_ifs <;> simp
  rw [hrun]
  simp only [Problem.pcg, setup_parts, Option.bind_some, Algo.next, if_pos h0, hinit]
  revert hg
  rcases q.whole.setup s with ⟨s', g⟩
  intro hg
  cases g
  · simp only [loop_parts, Option.map_some]
    exact congrArg some (finish (q.whole.algo.loop maxInt ⟨0, s'⟩))
  · rfl
  · exact absurd rfl hg

theorem loop_truth {E : Type} [NormedAddCommGroup E] [InnerProductSpace ℝ E] (p : Pcg E) (m k : Nat) (s : PcgState E) (ht : p.True s)
    (he : ¬ s.error < p.tol) (hk : k ≤ p.maxiter) (hm : p.maxiter < k + m) :
    p.True (p.algo.loop m ⟨k, s⟩).1.state ∧ ((p.algo.loop m ⟨k, s⟩).2 ≠ .abnormal ↔ (p.algo.loop m ⟨k, s⟩).1.state.error < p.tol) ∧
      (p.algo.loop m ⟨k, s⟩).1.niterations ≤ p.maxiter ∧
      ((p.algo.loop m ⟨k, s⟩).2 = .abnormal → (p.algo.loop m ⟨k, s⟩).1.niterations = p.maxiter) := by
  induction m generalizing k s with
  | zero => omega
  | succ m ih =>
    rw [Algo.loop, Algo.step, Algo.check]
    have hn : p.algo.normal k s = false := rfl
    have ha : p.algo.abnormal k s = (k == p.maxiter) := rfl
    simp only [hn, ha, Bool.false_eq_true, if_false]
    by_cases hk' : k = p.maxiter
    · subst hk'
      simpa [ht] using he
    · have hb : (k == p.maxiter) = false := by simp [hk']
      have hi : p.algo.iteration s = p.iteration s := rfl
      have hit := iteration_true p s ht
      simp only [hb, Bool.false_eq_true, if_false, hi]
      revert hit
      rcases p.iteration s with ⟨s', g⟩
      rintro ⟨h1, h2, h3, h4⟩
      cases g
      · exact ih (k + 1) s' h1 (h3 rfl) (by omega) (by omega)
      · have h5 : s'.error < p.tol := h2 rfl
        refine ⟨h1, ⟨fun _ => h5, fun _ => by simp⟩, ?_, by simp⟩
        show k + 1 ≤ p.maxiter
        omega
      · exact absurd rfl h4

/-- **C106** On every process `pcg` returns its part of the same x, the same success, number of iterations and error.  If the right-hand side is not
zero, the error is the norm of the residual of that x relative to the norm of the right-hand side, on all the processes, and the success is that this
error is less than the tolerance; without it the maximum number of iterations is reached, and it is never exceeded.  If it is zero, so is x. -/
theorem C106_truth [NeZero P] (q : Problem n) (st : States n) (hm : q.maxiter < maxInt) :
    ∃ (x : Vec n) (success : Bool) (nit : Nat) (error : ℝ), q.pcg st = some (fun p => ⟨x p, success, nit, error⟩) ∧
      (gather q.b ≠ 0 → error = ‖gather q.b - q.A x‖ / ‖gather q.b‖ ∧ (success = true ↔ error < q.tol) ∧ nit ≤ q.maxiter ∧
        (success = false → nit = q.maxiter)) ∧
      (gather q.b = 0 → x = 0 ∧ success = true ∧ nit = 0 ∧ error = 0) := by
  let s : PcgState (Vec n) := ⟨0, 0, 0, 0, 0⟩
  have hpcg := C106_processes q st s
  have hrun : q.whole.algo.run none ⟨0, s⟩ = catchStop (q.whole.algo.next maxInt ⟨0, s⟩) := rfl
  have hinit : q.whole.algo.init ⟨0, s⟩ = some (⟨0, (q.whole.setup s).1⟩, (q.whole.setup s).2) := rfl
  have h0 : (⟨0, s⟩ : Inst (PcgState (Vec n))).niterations = q.whole.algo.order - 1 := rfl
  refine ⟨_, _, _, _, hpcg, ?_, ?_⟩
  · intro hb
    have hb' : q.whole.b ≠ 0 := hb
    obtain ⟨h1, h2, h3, h4⟩ := setup_true q.whole hb' s
    rw [hrun]
    simp only [Algo.next, if_pos h0, hinit]
    revert h1 h2 h3 h4
    rcases q.whole.setup s with ⟨s', g⟩
    intro h1 h2 h3 h4
    cases g
    · have hl := loop_truth q.whole maxInt 0 s' h1 (h3 rfl) (Nat.zero_le _) (by rw [Nat.zero_add]; exact hm)
      revert hl
      simp only [decide_eq_true_eq, decide_eq_false_iff_not]
      rcases q.whole.algo.loop maxInt ⟨0, s'⟩ with ⟨j, g⟩
      rintro ⟨l1, l2, l3, l4⟩
      have he : j.state.error = ‖gather q.b - q.A j.state.x‖ / ‖gather q.b‖ := by rw [l1.2, errorOf_eq]; rfl
      cases g
      · exact ⟨he, by simpa [catchStop, Signal.raised, Problem.whole] using l2, l3, by simp [catchStop, Signal.raised]⟩
      · exact ⟨he, by simpa [catchStop, Signal.raised, Problem.whole] using l2, l3, by simp [catchStop, Signal.raised]⟩
      · exact ⟨he, by simpa [catchStop, Signal.raised, Problem.whole] using l2, l3, fun _ => l4 rfl⟩
    · have he : s'.error = ‖gather q.b - q.A s'.x‖ / ‖gather q.b‖ := by rw [h1.2, errorOf_eq]; rfl
      have h5 : s'.error < q.tol := h2 rfl
      exact ⟨he, by simpa [catchStop, Signal.raised] using h5, Nat.zero_le _, by simp [catchStop, Signal.raised]⟩
    · exact absurd rfl h4
  · intro hb
    have hs : q.whole.setup s = ({ s with x := 0, error := 0 }, .stop) := by
      have hb' : q.whole.b = 0 := hb
      simp only [Pcg.setup]
      rw [if_pos (by simp [dot, hb'])]
    rw [hrun]
    simp only [Algo.next, if_pos h0, hinit, hs]
    simp [catchStop, Signal.raised]

/-- **C106** If the matrix and the preconditioner are symmetric and positive definite and the maximum number of iterations is at least the number of
unknowns of all the processes together, every process succeeds, after at most that number of iterations. -/
theorem C106_converges [NeZero P] (q : Problem n) (st : States n) (hA : Spd q.A) (hM : Spd q.M) (ht : 0 < q.tol) (hm : q.maxiter < maxInt)
    (hn : ∑ p, n p ≤ q.maxiter) : ∃ out, q.pcg st = some out ∧ ∀ p, (out p).success = true ∧ (out p).nit ≤ ∑ p, n p := by
  have hd : Module.finrank ℝ (Vec n) = ∑ p, n p := by
    rw [(WithLp.linearEquiv 2 ℝ (∀ p, Local n p)).finrank_eq, Module.finrank_pi_fintype]
    simp
  obtain ⟨j, hj, hle⟩ := C41_finite q.whole hA hM ht ⟨0, 0, 0, 0, 0⟩ hm (by rw [hd]; exact hn)
  refine ⟨_, C106_processes q st ⟨0, 0, 0, 0, 0⟩, fun p => ?_⟩
  rw [hd] at hle
  simp [hj, hle]

/-- `pcg` with a right-hand side of complex numbers and a real operator: the conversion to the type of the operator keeps the real parts,
src/pyoperators/iterative/cg.py:73-78 (`np.array(b, dtype, copy=False)`). -/
noncomputable def Problem.pcgComplex (q : Problem n) (b : ∀ p, Fin (n p) → ℂ) (st : States n) : Option (∀ p, Output (Local n p)) :=
  Problem.pcg { q with b := fun p => WithLp.toLp 2 fun i => (b p i).re } st

/-- Two processes with one and two elements and the matrix 2 I. -/
noncomputable def twoProcesses : Problem ![1, 2] where
  A := (2 : ℝ) • LinearMap.id
  M := LinearMap.id
  b := fun _ => WithLp.toLp 2 fun _ => 4
  x0 := fun _ => 0
  tol := 1 / 10
  maxiter := 300

/-- C106: for a complex right-hand side, the error that is returned is not that of the solution: with the right-hand side (i, i, i), `pcg` returns 0 on
the two processes, says that it has succeeded and that the error is 0, although no element of A x is that of the right-hand side. -/
theorem C106_complex_fails : ∃ (q : Problem ![1, 2]) (b : ∀ p, Fin (![1, 2] p) → ℂ) (st : States ![1, 2]) (out : ∀ p, Output (Local ![1, 2] p)),
    q.pcgComplex b st = some out ∧ (∀ p, (out p).success = true ∧ (out p).error = 0) ∧
      ∀ p i, ((q.A (gather fun p => (out p).x) p i : ℝ) : ℂ) ≠ b p i := by
  refine ⟨twoProcesses, fun _ _ => Complex.I, fun _ => ⟨0, 0, 0, 0, 0⟩, ?_⟩
  obtain ⟨x, success, nit, error, h, -, h0⟩ := C106_truth { twoProcesses with b := fun _ => WithLp.toLp 2 fun _ => Complex.I.re }
    (fun _ => ⟨0, 0, 0, 0, 0⟩) (by simp [twoProcesses, maxInt])
  obtain ⟨hx, hs, -, he⟩ := h0 (by ext p i; simp [gather])
  refine ⟨_, h, fun p => ⟨hs, he⟩, fun p i hi => ?_⟩
  have := congrArg Complex.im hi
  simp at this

/-- Example of C106_converges. -/
theorem twoProcesses_converges : ∃ out, twoProcesses.pcg (fun _ => ⟨0, 0, 0, 0, 0⟩) = some out ∧ ∀ p, (out p).success = true ∧ (out p).nit ≤ 3 := by
  have hs : Spd ((2 : ℝ) • (LinearMap.id : Vec ![1, 2] →ₗ[ℝ] Vec ![1, 2])) := by
    refine ⟨fun x y => by simp [dot, real_inner_smul_left, real_inner_smul_right], fun x hx => ?_⟩
    have : 0 < inner ℝ x x := real_inner_self_pos.2 hx
    simpa [dot, real_inner_smul_right] using this
  have hi : Spd (LinearMap.id : Vec ![1, 2] →ₗ[ℝ] Vec ![1, 2]) := ⟨fun x y => by simp [dot], fun x hx => by simpa [dot] using real_inner_self_pos.2 hx⟩
  have := C106_converges twoProcesses (fun _ => ⟨0, 0, 0, 0, 0⟩) hs hi (by norm_num [twoProcesses]) (by simp [twoProcesses, maxInt])
    (by simp [twoProcesses, Fin.sum_univ_two])
  simpa [Fin.sum_univ_two] using this

/-- Example of C106_processes and C106_truth. -/
example : ∃ (x : Vec ![1, 2]) (nit : Nat) (error : ℝ), twoProcesses.pcg (fun _ => ⟨0, 0, 0, 0, 0⟩) = some (fun p => ⟨x p, true, nit, error⟩) ∧
    error < 1 / 10 ∧ error = ‖gather twoProcesses.b - (2 : ℝ) • x‖ / ‖gather twoProcesses.b‖ := by
  obtain ⟨out, h1, h2⟩ := twoProcesses_converges
  obtain ⟨x, success, nit, error, h, h3, -⟩ := C106_truth twoProcesses (fun _ => ⟨0, 0, 0, 0, 0⟩) (by simp [twoProcesses, maxInt])
  rw [h1] at h
  cases Option.some.inj h
  have hs : success = true := (h2 0).1
  obtain ⟨h4, h5, -⟩ := h3 (fun h => by
    have : (4 : ℝ) = 0 := congrArg (fun v : Vec ![1, 2] => v 0 ⟨0, by simp⟩) h
    norm_num at this)
  subst hs
  exact ⟨x, nit, error, h1, h5.1 rfl, h4⟩

end Verif.CgMpi
