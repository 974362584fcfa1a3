import Verif.Iter.ControlProps
import Mathlib.Analysis.InnerProductSpace.Basic
import Mathlib.LinearAlgebra.FiniteDimensional.Defs
import Mathlib.LinearAlgebra.Dimension.Constructions
import Mathlib.Analysis.InnerProductSpace.PiL2
import Mathlib.Analysis.Complex.Basic
import Mathlib.Tactic.FieldSimp
import Mathlib.Tactic.LinearCombination

/-
Model of the preconditioned conjugate gradient: src/pyoperators/iterative/cg.py:14-155 (`PCGAlgorithm`), in exact arithmetic, and property
C41.
-/

namespace Verif.Iter

/-- The problem and the parameters: src/pyoperators/iterative/cg.py:20-31.  The vectors are those of a real inner product space, the
product being that of src/pyoperators/iterative/cg.py:251-263 summed over the processes. -/
structure Pcg (E : Type) [NormedAddCommGroup E] [InnerProductSpace ℝ E] where
  A : E →ₗ[ℝ] E
  b : E
  x0 : E
  tol : ℝ
  maxiter : Nat
  M : E →ₗ[ℝ] E

/-- The attributes. -/
structure PcgState (E : Type) where
  x : E
  r : E
  d : E
  delta : ℝ
  error : ℝ

variable {E : Type} [NormedAddCommGroup E] [InnerProductSpace ℝ E]

/-- `dot`: src/pyoperators/iterative/cg.py:259-263. -/
noncomputable def dot (x y : E) : ℝ := inner ℝ x y

/-- The error: src/pyoperators/iterative/cg.py:135 and 146. -/
noncomputable def Pcg.errorOf (p : Pcg E) (r : E) : ℝ := Real.sqrt (dot r r / dot p.b p.b)

open Classical in
/-- `initialize`: src/pyoperators/iterative/cg.py:125-139. -/
noncomputable def Pcg.setup (p : Pcg E) (s : PcgState E) : PcgState E × Signal :=
  if dot p.b p.b = 0 then ({ s with x := 0, error := 0 }, .stop)
  else
    let r := p.b - p.A p.x0
    let error := p.errorOf r
    if error < p.tol then ({ s with x := p.x0, r := r, error := error }, .stop)
    else
      let d := p.M r
      ({ x := p.x0, r := r, d := d, delta := dot r d, error := error }, .go)

open Classical in
/-- `iteration`: src/pyoperators/iterative/cg.py:141-155. -/
noncomputable def Pcg.iteration (p : Pcg E) (s : PcgState E) : PcgState E × Signal :=
  let q := p.A s.d
  let alpha := s.delta / dot s.d q
  let x := s.x + alpha • s.d
  let r := s.r - alpha • q
  let error := p.errorOf r
  if error < p.tol then ({ s with x := x, r := r, error := error }, .stop)
  else
    let z := p.M r
    let delta := dot r z
    let beta := delta / s.delta
    ({ x := x, r := r, d := beta • s.d + z, delta := delta, error := error }, .go)

/-- The algorithm: the recursion is in place, so that `_update_variables` does nothing.  There is no normal stop condition, and the
abnormal one is the maximum number of iterations: src/pyoperators/iterative/cg.py:82-98. -/
noncomputable def Pcg.algo (p : Pcg E) : Algo (PcgState E) :=
  { order := 1, reuse := false, setup := p.setup, iteration := p.iteration, update := id
    normal := Cond.none.holds, abnormal := (Cond.maxIteration p.maxiter).holds }

/-! ### The residual -/

/-- The residual and the error are the true ones. -/
def Pcg.True (p : Pcg E) (s : PcgState E) : Prop := s.r = p.b - p.A s.x ∧ s.error = p.errorOf (p.b - p.A s.x)

theorem setup_true (p : Pcg E) (hb : p.b ≠ 0) (s : PcgState E) : p.True (p.setup s).1 ∧
    ((p.setup s).2 = .stop → (p.setup s).1.error < p.tol) ∧ ((p.setup s).2 = .go → ¬ (p.setup s).1.error < p.tol) ∧
      (p.setup s).2 ≠ .abnormal := by
  have : dot p.b p.b ≠ 0 := by simpa [dot] using hb
  simp only [Pcg.setup, if_neg this]
  split
  · next h => exact ⟨⟨rfl, rfl⟩, fun _ => h, fun e => by simp at e, by simp⟩
  · next h => exact ⟨⟨rfl, rfl⟩, fun e => by simp at e, fun _ => h, by simp⟩

theorem iteration_true (p : Pcg E) (s : PcgState E) (h : p.True s) : p.True (p.iteration s).1 ∧
    ((p.iteration s).2 = .stop → (p.iteration s).1.error < p.tol) ∧ ((p.iteration s).2 = .go → ¬ (p.iteration s).1.error < p.tol) ∧
      (p.iteration s).2 ≠ .abnormal := by
  have hr : s.r - (s.delta / dot s.d (p.A s.d)) • p.A s.d = p.b - p.A (s.x + (s.delta / dot s.d (p.A s.d)) • s.d) := by
    rw [h.1, map_add, map_smul]
    abel
  simp only [Pcg.iteration]
  split
  · next h => exact ⟨⟨hr, by rw [← hr]⟩, fun _ => h, fun e => by simp at e, by simp⟩
  · next h => exact ⟨⟨hr, by rw [← hr]⟩, fun e => by simp at e, fun _ => h, by simp⟩

theorem after_true (p : Pcg E) (i : Inst (PcgState E)) (h : p.True i.state) (k : Nat) : p.True (p.algo.after i k).state := by
  induction k with
  | zero => exact h
  | succ k ih => rw [after_add]; exact (iteration_true p _ ih).1

/-- C41: the residual is b - A x and the error its norm relative to that of b, at every iteration. -/
theorem C41_residual (p : Pcg E) (hb : p.b ≠ 0) (s : PcgState E) (k : Nat) :
    (p.algo.after ⟨0, (p.setup s).1⟩ k).state.r = p.b - p.A (p.algo.after ⟨0, (p.setup s).1⟩ k).state.x ∧
    (p.algo.after ⟨0, (p.setup s).1⟩ k).state.error = ‖p.b - p.A (p.algo.after ⟨0, (p.setup s).1⟩ k).state.x‖ / ‖p.b‖ := by
  obtain ⟨h1, h2⟩ := after_true p ⟨0, (p.setup s).1⟩ (setup_true p hb s).1 k
  refine ⟨h1, ?_⟩
  rw [h2]
  simp only [Pcg.errorOf, dot, real_inner_self_eq_norm_sq]
  rw [← div_pow, Real.sqrt_sq (by positivity)]

theorem errorOf_eq (p : Pcg E) (r : E) : p.errorOf r = ‖r‖ / ‖p.b‖ := by
  simp only [Pcg.errorOf, dot, real_inner_self_eq_norm_sq]
  rw [← div_pow, Real.sqrt_sq (by positivity)]

/-- C41: whatever the operators, if the algorithm ends normally, the norm of the true residual relative to that of b is less than the
tolerance, or b is zero and so is x.  If it does not, it has performed the maximum number of iterations. -/
theorem C41_stop (p : Pcg E) (s : PcgState E) (j : Inst (PcgState E)) (e : End) (hm : p.maxiter < maxInt)
    (h : p.algo.run none ⟨0, s⟩ = (j, e)) :
    (e = .returned ∧ p.b ≠ 0 ∧ ‖p.b - p.A j.state.x‖ / ‖p.b‖ < p.tol ∧ j.state.error = ‖p.b - p.A j.state.x‖ / ‖p.b‖) ∨
    (e = .returned ∧ p.b = 0 ∧ j.state.x = 0) ∨
    (e = .abnormalStop ∧ j.niterations = p.maxiter ∧ p.b ≠ 0 ∧ j.state.error = ‖p.b - p.A j.state.x‖ / ‖p.b‖) := by
  have hrun : p.algo.run none ⟨0, s⟩ = catchStop (p.algo.next maxInt ⟨0, s⟩) := rfl
  rw [hrun] at h
  have hinit : p.algo.init ⟨0, s⟩ = some (⟨0, (p.setup s).1⟩, (p.setup s).2) := rfl
  by_cases hb : p.b = 0
  · right; left
    have hs : p.setup s = ({ s with x := 0, error := 0 }, .stop) := by
      simp only [Pcg.setup]
      rw [if_pos (by simp [dot, hb])]
    have hn : p.algo.next maxInt ⟨0, s⟩ = (⟨0, { s with x := 0, error := 0 }⟩, .stopIteration) := by
      have h0 : (⟨0, s⟩ : Inst (PcgState E)).niterations = p.algo.order - 1 := rfl
      simp only [Algo.next, if_pos h0, hinit, hs]
      rfl
    rw [hn] at h
    simp only [catchStop, Prod.mk.injEq] at h
    obtain ⟨rfl, rfl⟩ := h
    exact ⟨rfl, hb, rfl⟩
  · obtain ⟨t1, t2, t3, t4⟩ := setup_true p hb s
    cases hs : (p.setup s).2 with
    | abnormal => exact absurd hs t4
    | stop =>
      left
      have hn : p.algo.next maxInt ⟨0, s⟩ = (⟨0, (p.setup s).1⟩, .stopIteration) := by
        have h0 : (⟨0, s⟩ : Inst (PcgState E)).niterations = p.algo.order - 1 := rfl
        simp only [Algo.next, if_pos h0, hinit, hs]
        rfl
      rw [hn] at h
      simp only [catchStop, Prod.mk.injEq] at h
      obtain ⟨rfl, rfl⟩ := h
      have := t2 hs
      rw [t1.2, errorOf_eq] at this
      exact ⟨rfl, hb, this, by rw [t1.2, errorOf_eq]⟩
    | go =>
      have hst : p.algo.Starts ⟨0, s⟩ ⟨0, (p.setup s).1⟩ := Or.inl ⟨rfl, rfl, hs⟩
      obtain ⟨k, hk, hg, hc⟩ := C40_only p.algo ⟨0, s⟩ ⟨0, (p.setup s).1⟩ maxInt hst
      have hnit : ∀ k, (p.algo.after ⟨0, (p.setup s).1⟩ k).niterations = k := fun k => by rw [after_niterations]; simp
      rcases hc with ⟨hn, rfl⟩ | ⟨hn, hnorm⟩ | ⟨hn, -, hab⟩ | ⟨hn, hit⟩ | ⟨hn, hit⟩
      · have := (hg p.maxiter hm).2.1
        rw [hnit] at this
        simp [Pcg.algo, Cond.holds] at this
      · simp [Pcg.algo, Cond.holds] at hnorm
      · right; right
        rw [hn] at h
        simp only [catchStop, Prod.mk.injEq] at h
        obtain ⟨rfl, rfl⟩ := h
        refine ⟨rfl, ?_, hb, (C41_residual p hb s k).2⟩
        simpa [Pcg.algo, Cond.holds] using hab
      · left
        rw [hn] at h
        simp only [catchStop, Prod.mk.injEq] at h
        obtain ⟨rfl, rfl⟩ := h
        have hr := (C41_residual p hb s (k + 1)).2
        have := (iteration_true p _ (after_true p ⟨0, (p.setup s).1⟩ t1 k)).2.1 hit
        have ee : (p.algo.after ⟨0, (p.setup s).1⟩ (k + 1)).state =
            (p.iteration (p.algo.after ⟨0, (p.setup s).1⟩ k).state).1 := by rw [after_add]; rfl
        refine ⟨rfl, hb, ?_, hr⟩
        rw [← hr, ee]
        exact this
      · exact absurd hit (iteration_true p _ (after_true p ⟨0, (p.setup s).1⟩ t1 k)).2.2.2

/-! ### Conjugate directions -/

/-- The sequences of the conjugate gradient, up to N. -/
structure IsCg (A M : E →ₗ[ℝ] E) (N : Nat) (r d : Nat → E) (δ : Nat → ℝ) : Prop where
  first : d 0 = M (r 0)
  delta : ∀ k ≤ N, δ k = dot (r k) (M (r k))
  residual : ∀ k < N, r (k + 1) = r k - (δ k / dot (d k) (A (d k))) • A (d k)
  direction : ∀ k < N, d (k + 1) = (δ (k + 1) / δ k) • d k + M (r (k + 1))

/-- The operator is symmetric and positive definite. -/
structure Spd (A : E →ₗ[ℝ] E) : Prop where
  symm : ∀ x y, dot (A x) y = dot x (A y)
  pos : ∀ x, x ≠ 0 → 0 < dot x (A x)

theorem dot_comm (x y : E) : dot x y = dot y x := real_inner_comm _ _

theorem cg_orthogonal {A M : E →ₗ[ℝ] E} {N : Nat} {r d : Nat → E} {δ : Nat → ℝ} (h : IsCg A M N r d δ) (hA : Spd A) (hM : Spd M)
    (hr : ∀ k ≤ N, r k ≠ 0) : ∀ k ≤ N,
      (∀ i < k, dot (r i) (M (r k)) = 0 ∧ dot (d i) (A (d k)) = 0) ∧ dot (r k) (d k) = δ k ∧ 0 < δ k ∧ 0 < dot (d k) (A (d k)) := by
  intro k
  induction k using Nat.strong_induction_on with
  | _ k ih =>
  intro hk
  have hδ : 0 < δ k := by rw [h.delta k hk]; exact hM.pos _ (hr k hk)
  -- the products with the earlier vectors
  have hprev : ∀ i < k, dot (r i) (M (r k)) = 0 := by
    intro i hi
    obtain ⟨m, rfl⟩ : ∃ m, k = m + 1 := ⟨k - 1, by omega⟩
    obtain ⟨ih1, ih2, ih3, ih4⟩ := ih m (by omega) (by omega)
    have e : dot (r i) (M (r (m + 1))) = dot (M (r i)) (r m) - δ m / dot (d m) (A (d m)) * dot (M (r i)) (A (d m)) := by
      rw [← hM.symm, h.residual m (by omega)]
      simp only [dot, inner_sub_right, inner_smul_right]
    rw [e]
    have hz : dot (M (r i)) (A (d m)) = if i = m then dot (d m) (A (d m)) else 0 := by
      cases i with
      | zero =>
        rw [← h.first]
        split
        · next e => rw [← e]
        · exact (ih1 0 (by omega)).2
      | succ i =>
        have hd : M (r (i + 1)) = d (i + 1) - (δ (i + 1) / δ i) • d i := by rw [h.direction i (by omega)]; abel
        rw [hd]
        simp only [dot, inner_sub_left, inner_smul_left]
        have hi' : inner ℝ (d i) (A (d m)) = (0 : ℝ) := (ih1 i (by omega)).2
        rw [hi']
        split
        · next e => rw [e]; simp
        · have : inner ℝ (d (i + 1)) (A (d m)) = (0 : ℝ) := (ih1 (i + 1) (by omega)).2
          rw [this]; simp
    rw [hz]
    split
    · next e =>
      rw [e, dot_comm, ← h.delta m (by omega)]
      field_simp
      ring
    · rw [hM.symm, dot_comm]
      have : dot (r i) (M (r m)) = 0 := (ih1 i (by omega)).1
      rw [← hM.symm, dot_comm] at this
      rw [dot_comm, ← hM.symm, dot_comm, this]; simp
  -- the products with the earlier directions
  have hdir : ∀ i < k, dot (r k) (d i) = 0 := by
    intro i
    induction i with
    | zero => intro hi; rw [h.first, ← hM.symm, dot_comm]; exact hprev 0 hi
    | succ i ihi =>
      intro hi
      rw [h.direction i (by omega)]
      simp only [dot, inner_add_right, inner_smul_right]
      have e1 : inner ℝ (r k) (d i) = (0 : ℝ) := ihi (by omega)
      have e2 : inner ℝ (r k) (M (r (i + 1))) = (0 : ℝ) := by
        have := hprev (i + 1) hi
        rw [← hM.symm, dot_comm] at this
        exact this
      rw [e1, e2]; simp
  have hrd : dot (r k) (d k) = δ k := by
    cases k with
    | zero => rw [h.first, h.delta 0 hk]
    | succ m =>
      rw [h.direction m (by omega)]
      simp only [dot, inner_add_right, inner_smul_right]
      have e1 : inner ℝ (r (m + 1)) (d m) = (0 : ℝ) := hdir m (by omega)
      rw [e1, h.delta (m + 1) hk]; simp [dot]
  have hd0 : d k ≠ 0 := by
    intro e
    rw [e] at hrd
    simp only [dot, inner_zero_right] at hrd
    linarith
  refine ⟨fun i hi => ⟨hprev i hi, ?_⟩, hrd, hδ, hA.pos _ hd0⟩
  obtain ⟨m, rfl⟩ : ∃ m, k = m + 1 := ⟨k - 1, by omega⟩
  obtain ⟨ih1, ih2, ih3, ih4⟩ := ih m (by omega) (by omega)
  obtain ⟨-, -, jh3, jh4⟩ := ih i (by omega) (by omega)
  -- A d_i is proportional to the difference of the residuals
  have hAd : dot (A (d i)) (M (r (m + 1))) = dot (d i) (A (d i)) / δ i * (dot (r i) (M (r (m + 1))) - dot (r (i + 1)) (M (r (m + 1)))) := by
    rw [h.residual i (by omega)]
    simp only [dot, inner_sub_left, inner_smul_left] at jh4 ⊢
    simp only [conj_trivial]
    field_simp
    ring
  have hexp : dot (d i) (A (d (m + 1))) = δ (m + 1) / δ m * dot (d i) (A (d m)) + dot (A (d i)) (M (r (m + 1))) := by
    rw [h.direction m (by omega), ← hA.symm, ← hA.symm]
    simp only [dot, inner_add_right, inner_smul_right]
  rw [hexp, hAd, hprev i hi]
  by_cases him : i = m
  · subst him
    rw [← h.delta (i + 1) hk]
    field_simp
    ring
  · rw [(ih1 i (by omega)).2, hprev (i + 1) (by omega)]
    simp

theorem not_stop_ne (p : Pcg E) (ht : 0 < p.tol) {s : PcgState E} (h : p.True s) (he : ¬ s.error < p.tol) : s.r ≠ 0 := by
  intro e
  apply he
  rw [h.2, ← h.1, e, errorOf_eq]
  simpa using ht

/-- The sequences of the algorithm, as long as it does not stop. -/
theorem algo_cg (p : Pcg E) (hb : p.b ≠ 0) (ht : 0 < p.tol) (s : PcgState E) (hs : (p.setup s).2 = .go) (N : Nat)
    (hg : ∀ j < N, p.algo.Goes (p.algo.after ⟨0, (p.setup s).1⟩ j)) :
    IsCg p.A p.M N (fun k => (p.algo.after ⟨0, (p.setup s).1⟩ k).state.r) (fun k => (p.algo.after ⟨0, (p.setup s).1⟩ k).state.d)
      (fun k => (p.algo.after ⟨0, (p.setup s).1⟩ k).state.delta) ∧
    ∀ k ≤ N, (p.algo.after ⟨0, (p.setup s).1⟩ k).state.r ≠ 0 := by
  obtain ⟨t1, t2, t3, t4⟩ := setup_true p hb s
  have hgo : ∀ s : PcgState E, (p.iteration s).2 = .go →
      (p.iteration s).1.r = s.r - (s.delta / dot s.d (p.A s.d)) • p.A s.d ∧
      (p.iteration s).1.delta = dot (p.iteration s).1.r (p.M (p.iteration s).1.r) ∧
      (p.iteration s).1.d = ((p.iteration s).1.delta / s.delta) • s.d + p.M (p.iteration s).1.r := by
    intro s h
    simp only [Pcg.iteration] at h ⊢
    split at h
    · simp at h
    · next hne => rw [if_neg hne]; exact ⟨rfl, rfl, rfl⟩
  have hsg : (p.setup s).1.d = p.M (p.setup s).1.r ∧ (p.setup s).1.delta = dot (p.setup s).1.r (p.setup s).1.d := by
    have hb' : dot p.b p.b ≠ 0 := by simpa [dot] using hb
    simp only [Pcg.setup, if_neg hb'] at hs ⊢
    split at hs
    · simp at hs
    · next hne => rw [if_neg hne]; exact ⟨rfl, rfl⟩
  have hstep : ∀ k, (p.algo.after ⟨0, (p.setup s).1⟩ (k + 1)).state = (p.iteration (p.algo.after ⟨0, (p.setup s).1⟩ k).state).1 := by
    intro k; rw [after_add]; rfl
  refine ⟨⟨hsg.1, fun k hk => ?_, fun k hk => ?_, fun k hk => ?_⟩, fun k hk => ?_⟩
  · cases k with
    | zero => exact hsg.2.trans (by rw [hsg.1]; rfl)
    | succ k => simp only [hstep]; exact (hgo _ (hg k (by omega)).2.2).2.1
  · simp only [hstep]; exact (hgo _ (hg k hk).2.2).1
  · simp only [hstep]; exact (hgo _ (hg k hk).2.2).2.2
  · have htrue := after_true p ⟨0, (p.setup s).1⟩ t1 k
    refine not_stop_ne p ht htrue ?_
    cases k with
    | zero => exact t3 hs
    | succ k =>
      rw [hstep]
      exact (iteration_true p _ (after_true p ⟨0, (p.setup s).1⟩ t1 k)).2.2.1 (hg k (by omega)).2.2

/-- C41: if A and the preconditioner are symmetric positive definite, any two search directions are conjugate and any two residuals are
orthogonal with respect to the preconditioner, as long as the algorithm does not stop; in particular the algorithm never divides by zero. -/
theorem C41_conjugate (p : Pcg E) (hA : Spd p.A) (hM : Spd p.M) (hb : p.b ≠ 0) (ht : 0 < p.tol) (s : PcgState E)
    (hs : (p.setup s).2 = .go) (k : Nat) (hg : ∀ j < k, p.algo.Goes (p.algo.after ⟨0, (p.setup s).1⟩ j)) :
    (∀ i < k, dot (p.algo.after ⟨0, (p.setup s).1⟩ i).state.d (p.A (p.algo.after ⟨0, (p.setup s).1⟩ k).state.d) = 0 ∧
      dot (p.algo.after ⟨0, (p.setup s).1⟩ i).state.r (p.M (p.algo.after ⟨0, (p.setup s).1⟩ k).state.r) = 0) ∧
    0 < (p.algo.after ⟨0, (p.setup s).1⟩ k).state.delta ∧
    0 < dot (p.algo.after ⟨0, (p.setup s).1⟩ k).state.d (p.A (p.algo.after ⟨0, (p.setup s).1⟩ k).state.d) := by
  obtain ⟨h1, h2⟩ := algo_cg p hb ht s hs k hg
  obtain ⟨h3, -, h5, h6⟩ := cg_orthogonal h1 hA hM h2 k (le_refl _)
  exact ⟨fun i hi => ⟨(h3 i hi).2, (h3 i hi).1⟩, h5, h6⟩

theorem cg_independent {A M : E →ₗ[ℝ] E} {N : Nat} {r d : Nat → E} {δ : Nat → ℝ} (h : IsCg A M N r d δ) (hA : Spd A) (hM : Spd M)
    (hr : ∀ k ≤ N, r k ≠ 0) : LinearIndependent ℝ (fun i : Fin (N + 1) => r i) := by
  rw [Fintype.linearIndependent_iff]
  intro g hg j
  have horth : ∀ i j : Fin (N + 1), i ≠ j → dot (r i) (M (r j)) = 0 := by
    intro i j hij
    rcases lt_or_gt_of_ne hij with hlt | hlt
    · exact ((cg_orthogonal h hA hM hr j (by omega)).1 i hlt).1
    · rw [← hM.symm, dot_comm]
      exact ((cg_orthogonal h hA hM hr i (by omega)).1 j hlt).1
  have := congrArg (fun v => dot v (M (r j))) hg
  simp only [dot, sum_inner, inner_smul_left, conj_trivial, inner_zero_left] at this
  rw [Finset.sum_eq_single j] at this
  · rcases mul_eq_zero.1 this with e | e
    · exact e
    · have := hM.pos (r j) (hr j (by omega))
      rw [dot, e] at this
      exact absurd this (lt_irrefl _)
  · intro i _ hij
    have := horth i j hij
    rw [dot] at this
    rw [this, mul_zero]
  · intro hj; exact absurd (Finset.mem_univ j) hj

/-- C41: if moreover the maximum number of iterations is at least the number of unknowns, the algorithm ends normally after at most that
number of iterations. -/
theorem C41_finite [FiniteDimensional ℝ E] (p : Pcg E) (hA : Spd p.A) (hM : Spd p.M) (ht : 0 < p.tol) (s : PcgState E)
    (hm : p.maxiter < maxInt) (hn : Module.finrank ℝ E ≤ p.maxiter) :
    ∃ j, p.algo.run none ⟨0, s⟩ = (j, .returned) ∧ j.niterations ≤ Module.finrank ℝ E := by
  generalize hrun : p.algo.run none ⟨0, s⟩ = res
  obtain ⟨j, e⟩ := res
  by_cases hb : p.b = 0
  · have hn : p.algo.next maxInt ⟨0, s⟩ = (⟨0, { s with x := 0, error := 0 }⟩, .stopIteration) := by
      have h0 : (⟨0, s⟩ : Inst (PcgState E)).niterations = p.algo.order - 1 := rfl
      have hinit : p.algo.init ⟨0, s⟩ = some (⟨0, (p.setup s).1⟩, (p.setup s).2) := rfl
      have hs : p.setup s = ({ s with x := 0, error := 0 }, .stop) := by
        simp only [Pcg.setup]
        rw [if_pos (by simp [dot, hb])]
      simp only [Algo.next, if_pos h0, hinit, hs]
      rfl
    have h2 : p.algo.run none ⟨0, s⟩ = catchStop (p.algo.next maxInt ⟨0, s⟩) := rfl
    rw [h2, hn] at hrun
    simp only [catchStop, Prod.mk.injEq] at hrun
    obtain ⟨rfl, rfl⟩ := hrun
    exact ⟨_, rfl, by simp⟩
  · have hrun' : p.algo.run none ⟨0, s⟩ = catchStop (p.algo.next maxInt ⟨0, s⟩) := rfl
    rw [hrun'] at hrun
    cases hs : (p.setup s).2 with
    | abnormal => exact absurd hs (setup_true p hb s).2.2.2
    | stop =>
      have hnx : p.algo.next maxInt ⟨0, s⟩ = (⟨0, (p.setup s).1⟩, .stopIteration) := by
        have h0 : (⟨0, s⟩ : Inst (PcgState E)).niterations = p.algo.order - 1 := rfl
        have hinit : p.algo.init ⟨0, s⟩ = some (⟨0, (p.setup s).1⟩, (p.setup s).2) := rfl
        simp only [Algo.next, if_pos h0, hinit, hs]
        rfl
      rw [hnx] at hrun
      simp only [catchStop, Prod.mk.injEq] at hrun
      obtain ⟨rfl, rfl⟩ := hrun
      exact ⟨_, rfl, by simp⟩
    | go =>
      have hst : p.algo.Starts ⟨0, s⟩ ⟨0, (p.setup s).1⟩ := Or.inl ⟨rfl, rfl, hs⟩
      obtain ⟨k, hk, hg, hc⟩ := C40_only p.algo ⟨0, s⟩ ⟨0, (p.setup s).1⟩ maxInt hst
      have hnit : ∀ k, (p.algo.after ⟨0, (p.setup s).1⟩ k).niterations = k := fun k => by rw [after_niterations]; simp
      have hdim : k + 1 ≤ Module.finrank ℝ E := by
        obtain ⟨h1, h2⟩ := algo_cg p hb ht s hs k hg
        have := (cg_independent h1 hA hM h2).fintype_card_le_finrank
        simpa using this
      rcases hc with ⟨hn', rfl⟩ | ⟨hn', hnorm⟩ | ⟨hn', -, hab⟩ | ⟨hn', hit⟩ | ⟨hn', hit⟩
      · omega
      · simp [Pcg.algo, Cond.holds] at hnorm
      · have : k = p.maxiter := by rw [hnit] at hab; simpa [Pcg.algo, Cond.holds] using hab
        omega
      · rw [hn'] at hrun
        simp only [catchStop, Prod.mk.injEq] at hrun
        obtain ⟨rfl, rfl⟩ := hrun
        exact ⟨_, rfl, by rw [hnit]; exact hdim⟩
      · exact absurd hit (iteration_true p _ (after_true p ⟨0, (p.setup s).1⟩ (setup_true p hb s).1 k)).2.2.2

/-! ### Example -/

/-- The multiplication by 2 of the real numbers is symmetric positive definite. -/
theorem spd_two : Spd ((2 : ℝ) • (LinearMap.id : ℝ →ₗ[ℝ] ℝ)) :=
  ⟨fun x y => by simp [dot]; ring, fun x hx => by simp [dot]; nlinarith [mul_self_pos.2 hx]⟩

theorem spd_id : Spd (LinearMap.id : ℝ →ₗ[ℝ] ℝ) := ⟨fun x y => rfl, fun x hx => by simp [dot]; nlinarith [mul_self_pos.2 hx]⟩

/-- 2 x = 4. -/
noncomputable def twoFour : Pcg ℝ := ⟨(2 : ℝ) • LinearMap.id, 4, 0, 1 / 10, 300, LinearMap.id⟩

example : ∃ j, twoFour.algo.run none ⟨0, ⟨0, 0, 0, 0, 0⟩⟩ = (j, .returned) ∧ j.niterations ≤ 1 := by
  have := C41_finite twoFour spd_two spd_id (by norm_num [twoFour]) ⟨0, 0, 0, 0, 0⟩ (by decide) (by simp [twoFour])
  simpa using this

theorem twoFour_setup : twoFour.setup ⟨0, 0, 0, 0, 0⟩ = (⟨0, 4, 4, 16, 1⟩, .go) := by
  have h1 : twoFour.errorOf 4 = 1 := by rw [errorOf_eq]; norm_num [twoFour]
  have h0 : ¬ dot twoFour.b twoFour.b = 0 := by norm_num [twoFour, dot]
  have hr : twoFour.b - twoFour.A twoFour.x0 = 4 := by norm_num [twoFour]
  simp only [Pcg.setup, if_neg h0, hr, h1]
  rw [if_neg (by norm_num [twoFour])]
  norm_num [twoFour, dot]

/-- The matrix diag(1, 2), the plane being the complex numbers. -/
noncomputable def diag12 : ℂ →ₗ[ℝ] ℂ :=
  { toFun := fun z => ⟨z.re, 2 * z.im⟩, map_add' := fun z w => by apply Complex.ext <;> simp; ring
    map_smul' := fun a z => by apply Complex.ext <;> simp; ring }

theorem dot_complex (z w : ℂ) : dot z w = z.re * w.re + z.im * w.im := by
  simp [dot, Complex.inner]
  try ring

theorem spd_diag12 : Spd diag12 := by
  refine ⟨fun x y => by simp [dot_complex, diag12]; ring, fun x hx => ?_⟩
  simp only [dot_complex, diag12, LinearMap.coe_mk, AddHom.coe_mk]
  have : x.re ≠ 0 ∨ x.im ≠ 0 := by
    by_contra h
    push Not at h
    exact hx (Complex.ext h.1 h.2)
  rcases this with h | h
  · nlinarith [mul_self_pos.2 h, mul_self_nonneg x.im]
  · nlinarith [mul_self_pos.2 h, mul_self_nonneg x.re]

theorem spd_idC : Spd (LinearMap.id : ℂ →ₗ[ℝ] ℂ) := by
  refine ⟨fun x y => rfl, fun x hx => ?_⟩
  rw [dot_complex]
  have h := Complex.normSq_pos.2 hx
  rw [Complex.normSq_apply] at h
  exact h

/-- diag(1, 2) x = (1, 1). -/
noncomputable def plane : Pcg ℂ := ⟨diag12, ⟨1, 1⟩, 0, 1 / 10, 300, LinearMap.id⟩

theorem plane_setup : plane.setup ⟨0, 0, 0, 0, 0⟩ = (⟨0, ⟨1, 1⟩, ⟨1, 1⟩, 2, 1⟩, .go) := by
  have h0 : ¬ dot plane.b plane.b = 0 := by norm_num [plane, dot_complex]
  have h1 : plane.errorOf ⟨1, 1⟩ = 1 := by norm_num [Pcg.errorOf, plane, dot_complex]
  have hr : plane.b - plane.A plane.x0 = ⟨1, 1⟩ := by simp [plane]
  simp only [Pcg.setup, if_neg h0, hr, h1]
  rw [if_neg (by norm_num [plane])]
  norm_num [plane, dot_complex]

/-- The hypotheses of C41_conjugate are met by two directions. -/
example : (plane.setup ⟨0, 0, 0, 0, 0⟩).2 = .go ∧ Spd plane.A ∧ Spd plane.M ∧ plane.b ≠ 0 ∧ 0 < plane.tol ∧
    ∀ j < 1, plane.algo.Goes (plane.algo.after ⟨0, (plane.setup ⟨0, 0, 0, 0, 0⟩).1⟩ j) := by
  refine ⟨by rw [plane_setup], spd_diag12, spd_idC, fun e => by simpa [plane] using congrArg Complex.re e, by norm_num [plane], ?_⟩
  intro j hj
  obtain rfl : j = 0 := by omega
  refine ⟨rfl, by simp [Pcg.algo, Algo.after, Cond.holds, plane], ?_⟩
  have e : plane.algo.after ⟨0, (plane.setup ⟨0, 0, 0, 0, 0⟩).1⟩ 0 = ⟨0, ⟨0, ⟨1, 1⟩, ⟨1, 1⟩, 2, 1⟩⟩ := by rw [plane_setup]; rfl
  rw [e]
  simp only [Pcg.algo, Pcg.iteration]
  have h1 : plane.errorOf ((⟨1, 1⟩ : ℂ) - ((2 : ℝ) / dot (⟨1, 1⟩ : ℂ) (plane.A ⟨1, 1⟩)) • plane.A ⟨1, 1⟩) = 1 / 3 := by
    have : (⟨1, 1⟩ : ℂ) - ((2 : ℝ) / dot (⟨1, 1⟩ : ℂ) (plane.A ⟨1, 1⟩)) • plane.A ⟨1, 1⟩ = ⟨1 / 3, -(1 / 3)⟩ := by
      apply Complex.ext <;> norm_num [plane, diag12, dot_complex]
    rw [this]
    simp only [Pcg.errorOf, plane, dot_complex]
    rw [show ((1 / 3 : ℝ) * (1 / 3) + -(1 / 3) * -(1 / 3)) / (1 * 1 + 1 * 1) = (1 / 3) ^ 2 by norm_num]
    exact Real.sqrt_sq (by norm_num)
  rw [h1, if_neg (by norm_num [plane])]

/-- The hypotheses of C41_finite are met. -/
example : (twoFour.setup ⟨0, 0, 0, 0, 0⟩).2 = .go ∧ Spd twoFour.A ∧ Spd twoFour.M ∧ twoFour.b ≠ 0 ∧ 0 < twoFour.tol :=
  ⟨by rw [twoFour_setup], spd_two, spd_id, by norm_num [twoFour], by norm_num [twoFour]⟩

end Verif.Iter
