import Mathlib.Analysis.SpecialFunctions.Log.Base
import Mathlib.Algebra.Group.Submonoid.Membership
import Mathlib.Data.Nat.Log
import Mathlib.Tactic.NormNum.NatLog
import Mathlib.Tactic.NormNum.Prime
import Mathlib.Tactic.IntervalCases
import Mathlib.RingTheory.Int.Basic

/-
Model of the least products of powers: src/pyoperators/utils/misc.py:651-682 (`least_greater_multiple`).
-/

namespace Verif.Multiple

/-! ### Model -/

/-- The integers of NumPy have 64 bits: the results of the operations are reduced modulo 2⁶⁴ without a warning. -/
def int64 (x : Int) : Int := Int.bmod x (2 ^ 64)

/-- The quotient rounded to the nearest integer, the even one of two that are equally near. -/
def roundEven (n u : Nat) : Nat :=
  if 2 * (n % u) < u then n / u else if 2 * (n % u) > u then n / u + 1 else if n / u % 2 = 0 then n / u else n / u + 1

/-- The conversion of an integer to a floating point number of 53 bits, by `np.log`. -/
def double (n : Nat) : Nat :=
  if n ≤ 2 ^ 53 then n else roundEven n (2 ^ (n.log2 - 52)) * 2 ^ (n.log2 - 52)

/-- `int(np.ceil(np.log(np.max(a)) / np.log(v)))`: src/pyoperators/utils/misc.py:668.  Simplification: the logarithms and their quotient
are exact, only the conversion of the integer to a floating point number is rounded. -/
noncomputable def maxPower (m v : Nat) : Nat := ⌈Real.log (double m) / Real.log v⌉₊

/-- The powers of the open grid, `np.ogrid[slices]`: src/pyoperators/utils/misc.py:669-670. -/
def grid : List Nat → List (List Nat)
  | [] => [[]]
  | m :: ms => (List.range (m + 1)).flatMap fun p => (grid ms).map (p :: ·)

/-- An element of the array `values`: src/pyoperators/utils/misc.py:671-673. -/
def product (acc : Int) : List Nat → List Nat → Int
  | v :: vs, p :: ps => product (int64 (acc * int64 ((v : Int) ^ p))) vs ps
  | _, _ => acc

/-- The smallest of the values that are not masked: src/pyoperators/utils/misc.py:676-677.  There may be no such value. -/
def smallest (values : List Int) (v : Nat) : Option Int := (values.filter fun x => decide ((v : Int) ≤ x)).min?

/-- `least_greater_multiple(a, factors)`: src/pyoperators/utils/misc.py:651-682, by the elements of the array `a`.  The factors are
integers, the elements of `a` are natural numbers, `out` is not given.  An exception, or a result of which an element is masked, is
`none`.  The logarithm of 1 is zero and the one of 0 is -∞, the quotients are not finite and they are not converted to integers: line 668.
A reduction by `np.amin` with a mask requires a value `initial`, that is not given: line 679. -/
noncomputable def leastGreater (numpy2 : Bool) (a : List Nat) (factors : List Int) : Option (List Int) :=
  if factors.any (· ≤ 0) then none
  else match a.max? with
    | none => none
    | some m =>
      if factors ≠ [] ∧ m = 0 ∨ 1 ∈ factors then none
      else
        let fs := factors.map Int.toNat
        let values := (grid (fs.map (maxPower m))).map (product 1 fs)
        if numpy2 then none else a.mapM (smallest values)

/-! ### Specification -/

/-- The number is a product of factors, that may be repeated. -/
def IsProduct (factors : List Int) (n : Int) : Prop := n ∈ Submonoid.closure {v : Int | v ∈ factors}

/-- The result is the least product of factors that is not less than the number. -/
def IsLeastProduct (factors : List Int) (v : Nat) (r : Int) : Prop :=
  IsProduct factors r ∧ (v : Int) ≤ r ∧ ∀ n, IsProduct factors n → (v : Int) ≤ n → r ≤ n

/-! ### Proofs -/

/-- The product without a reduction. -/
def exact : List Nat → List Nat → Nat
  | v :: vs, p :: ps => v ^ p * exact vs ps
  | _, _ => 1

theorem double_small {n : Nat} (h : n ≤ 2 ^ 53) : double n = n := by simp only [double, if_pos h]

theorem maxPower_eq {m v : Nat} (hm : double m = m) : maxPower m v = Nat.clog v m := by
  rw [maxPower, hm, Real.log_div_log, Real.natCeil_logb_natCast]

theorem grid_mem : ∀ {ms ps : List Nat}, ps ∈ grid ms ↔ List.Forall₂ (· ≤ ·) ps ms
  | [], ps => by cases ps <;> simp [grid]
  | m :: ms, [] => by simp [grid]
  | m :: ms, p :: ps => by
    simp only [grid, List.mem_flatMap, List.mem_range, List.mem_map, List.forall₂_cons, List.cons.injEq]
    constructor
    · rintro ⟨q, hq, l, hl, rfl, rfl⟩; exact ⟨by omega, grid_mem.1 hl⟩
    · rintro ⟨h1, h2⟩; exact ⟨p, by omega, ps, grid_mem.2 h2, rfl, rfl⟩

theorem exact_pos : ∀ {fs : List Nat} (ps : List Nat), (∀ v ∈ fs, 2 ≤ v) → 1 ≤ exact fs ps
  | [], ps, _ => by cases ps <;> simp [exact]
  | v :: vs, [], _ => by simp [exact]
  | v :: vs, p :: ps, h => by
    simp only [exact]
    have := exact_pos (fs := vs) ps fun w hw => h w (List.mem_cons_of_mem _ hw)
    have := Nat.pow_pos (n := p) (show 0 < v by have := h v List.mem_cons_self; omega)
    exact Nat.mul_pos (by omega) (by omega)

theorem int64_small {x : Nat} (h : x < 2 ^ 63) : int64 (x : Int) = x := by
  unfold int64; rw [Int.bmod_def]; omega

theorem product_exact : ∀ {fs ps : List Nat} {acc : Nat}, (∀ v ∈ fs, 2 ≤ v) → acc * exact fs ps < 2 ^ 63 → 1 ≤ acc →
    product acc fs ps = (acc * exact fs ps : Nat)
  | [], ps, acc, _, _, _ => by cases ps <;> simp [product, exact]
  | v :: vs, [], acc, _, _, _ => by simp [product, exact]
  | v :: vs, p :: ps, acc, hv, h, ha => by
    have hv' : ∀ w ∈ vs, 2 ≤ w := fun w hw => hv w (List.mem_cons_of_mem _ hw)
    have h1 := exact_pos ps hv'
    have h2 : 0 < v ^ p := Nat.pow_pos (by have := hv v List.mem_cons_self; omega)
    simp only [exact, ← Nat.mul_assoc] at h ⊢
    have h3 : acc * v ^ p < 2 ^ 63 := lt_of_le_of_lt (Nat.le_mul_of_pos_right _ h1) h
    have h4 : v ^ p < 2 ^ 63 := lt_of_le_of_lt (Nat.le_mul_of_pos_left _ ha) h3
    have e1 : int64 ((v : Int) ^ p) = (v ^ p : Nat) := by rw [← int64_small h4]; push_cast; rfl
    have e2 : int64 ((acc : Int) * (v ^ p : Nat)) = (acc * v ^ p : Nat) := by rw [← int64_small h3]; push_cast; rfl
    rw [product, e1, e2, product_exact hv' h (Nat.mul_pos ha h2)]

/-- Every product of factors is one with powers. -/
theorem isProduct_iff : ∀ {fs : List Nat} {n : Int},
    IsProduct (fs.map Int.ofNat) n ↔ ∃ ps : List Nat, ps.length = fs.length ∧ n = exact fs ps := by
  intro fs n
  constructor
  · intro h
    refine Submonoid.closure_induction (s := {v : Int | v ∈ fs.map Int.ofNat})
      (motive := fun n _ => ∃ ps : List Nat, ps.length = fs.length ∧ n = exact fs ps) ?_ ?_ ?_ h
    · intro x hx
      simp only [Set.mem_ofPred_eq, List.mem_map] at hx
      obtain ⟨v, hv, rfl⟩ := hx
      clear h
      induction fs with
      | nil => simp at hv
      | cons w fs ih =>
        rcases List.mem_cons.1 hv with rfl | hv
        · refine ⟨1 :: List.replicate fs.length 0, by simp, ?_⟩
          have : ∀ gs : List Nat, exact gs (List.replicate gs.length 0) = 1 := by
            intro gs; induction gs with
            | nil => rfl
            | cons g gs ig => simp [List.replicate_succ, exact, ig]
          simp [exact, this]
        · obtain ⟨ps, h1, h2⟩ := ih hv
          exact ⟨0 :: ps, by simp [h1], by simp only [exact, pow_zero, one_mul]; exact h2⟩
    · refine ⟨List.replicate fs.length 0, by simp, ?_⟩
      clear h
      induction fs with
      | nil => rfl
      | cons g gs ig => simp only [List.length_cons, List.replicate_succ, exact, pow_zero, one_mul]; exact ig
    · rintro x y - - ⟨ps, h1, rfl⟩ ⟨qs, h2, rfl⟩
      refine ⟨List.zipWith (· + ·) ps qs, by simp [h1, h2], ?_⟩
      clear h
      induction fs generalizing ps qs with
      | nil => simp [exact]
      | cons g gs ig =>
        cases ps with
        | nil => simp at h1
        | cons p ps =>
          cases qs with
          | nil => simp at h2
          | cons q qs =>
            have := ig ps (by simpa using h1) qs (by simpa using h2)
            simp only [List.zipWith_cons_cons, exact]
            push_cast at this ⊢
            rw [← this, pow_add]; ring
  · rintro ⟨ps, h1, rfl⟩
    unfold IsProduct
    suffices H : ∀ (gs ps : List Nat), gs ⊆ fs → ((exact gs ps : Nat) : Int) ∈ Submonoid.closure {v : Int | v ∈ fs.map Int.ofNat} from
      H fs ps (fun _ h => h)
    intro gs
    induction gs with
    | nil => intro ps _; cases ps <;> simp [exact]
    | cons g gs ig =>
      intro ps hs
      cases ps with
      | nil => simp [exact]
      | cons p ps =>
        simp only [exact]; push_cast
        refine Submonoid.mul_mem _ (Submonoid.pow_mem _ (Submonoid.subset_closure ?_) p)
          (ig ps fun x hx => hs (List.mem_cons_of_mem _ hx))
        exact List.mem_map.2 ⟨g, hs List.mem_cons_self, rfl⟩

/-- The product with the powers that are not greater than those of the grid is not greater, unless it is one of the grid, when it is
the smaller one. -/
theorem exact_cut : ∀ {fs ps : List Nat} {m : Nat}, (∀ v ∈ fs, 2 ≤ v) → ps.length = fs.length →
    (List.Forall₂ (· ≤ ·) ps (fs.map (Nat.clog · m))) ∨
      ∃ qs, List.Forall₂ (· ≤ ·) qs (fs.map (Nat.clog · m)) ∧ m ≤ exact fs qs ∧ exact fs qs ≤ exact fs ps
  | [], [], m, _, _ => by simp
  | v :: vs, p :: ps, m, hv, hl => by
    have hv' : ∀ w ∈ vs, 2 ≤ w := fun w hw => hv w (List.mem_cons_of_mem _ hw)
    have h2 := hv v List.mem_cons_self
    have h1 := exact_pos ps hv'
    by_cases hp : p ≤ Nat.clog v m
    · rcases exact_cut (m := m) hv' (by simpa using hl : ps.length = vs.length) with h | ⟨qs, hq, hm, hle⟩
      · exact Or.inl (List.Forall₂.cons hp h)
      · refine Or.inr ⟨0 :: qs, List.Forall₂.cons (by omega) hq, by simpa [exact] using hm, ?_⟩
        simp only [exact, pow_zero, one_mul]
        exact le_trans hle (Nat.le_mul_of_pos_left _ (Nat.pow_pos (by omega)))
    · right
      have hz : ∀ gs : List Nat, exact gs (List.replicate gs.length 0) = 1 := by
        intro gs; induction gs with
        | nil => rfl
        | cons g gs ig => simp [List.replicate_succ, exact, ig]
      have hf : ∀ gs : List Nat, List.Forall₂ (· ≤ ·) (List.replicate gs.length 0) (gs.map (Nat.clog · m)) := by
        intro gs; induction gs with
        | nil => simp
        | cons g gs ig => exact List.Forall₂.cons (Nat.zero_le _) ig
      refine ⟨Nat.clog v m :: List.replicate vs.length 0, List.Forall₂.cons le_rfl (hf vs), ?_, ?_⟩
      · simp only [exact, hz, mul_one]; exact Nat.le_pow_clog (by omega) m
      · simp only [exact, hz, mul_one]
        exact le_trans (Nat.pow_le_pow_right (by omega) (by omega)) (Nat.le_mul_of_pos_right _ h1)

/-- The products of the grid are not too large. -/
theorem exact_bound : ∀ {fs ps : List Nat} {m : Nat}, (∀ v ∈ fs, 2 ≤ v) → 1 ≤ m →
    List.Forall₂ (· ≤ ·) ps (fs.map (Nat.clog · m)) → exact fs ps ≤ (fs.map (· * m)).prod
  | [], ps, m, _, _, h => by cases ps <;> simp [exact]
  | v :: vs, p :: ps, m, hv, hm, h => by
    rw [List.map_cons, List.forall₂_cons] at h
    have h2 := hv v List.mem_cons_self
    have := exact_bound (fun w hw => hv w (List.mem_cons_of_mem _ hw)) hm h.2
    simp only [exact, List.map_cons, List.prod_cons]
    refine Nat.mul_le_mul ?_ this
    refine le_trans (Nat.pow_le_pow_right (by omega) h.1) ?_
    rcases Nat.eq_or_lt_of_le hm with rfl | hm'
    · simp; omega
    · have := Nat.pow_pred_clog_lt_self (b := v) (by omega) hm'
      have hc : 0 < Nat.clog v m := Nat.clog_pos (by omega) hm'
      obtain ⟨c, hc'⟩ : ∃ c, Nat.clog v m = c + 1 := ⟨Nat.clog v m - 1, by omega⟩
      rw [hc'] at this ⊢
      rw [Nat.pred_succ] at this
      rw [pow_succ, Nat.mul_comm]
      exact Nat.mul_le_mul_left _ (by omega)

theorem smallest_spec {values : List Int} {v : Nat} {x : Int} (hx : x ∈ values) (h : (v : Int) ≤ x) :
    ∃ r, smallest values v = some r ∧ r ∈ values ∧ (v : Int) ≤ r ∧ ∀ y ∈ values, (v : Int) ≤ y → r ≤ y := by
  have hne : (values.filter fun x => decide ((v : Int) ≤ x)) ≠ [] := by
    intro e
    have : x ∈ (values.filter fun x => decide ((v : Int) ≤ x)) := by simp [hx, h]
    rw [e] at this; simp at this
  obtain ⟨r, hr⟩ := Option.isSome_iff_exists.1 (List.isSome_min?_of_ne_nil hne)
  obtain ⟨h1, h2⟩ := List.min?_eq_some_iff.1 hr
  simp only [List.mem_filter, decide_eq_true_eq] at h1
  exact ⟨r, hr, h1.1, h1.2, fun y hy hv => h2 y (by simp [hy, hv])⟩

theorem mapM_spec {α β : Type} {f : α → Option β} {P : α → β → Prop} : ∀ {l : List α},
    (∀ x ∈ l, ∃ y, f x = some y ∧ P x y) → ∃ r, l.mapM f = some r ∧ List.Forall₂ P l r
  | [], _ => ⟨[], by simp⟩
  | x :: l, h => by
    obtain ⟨y, hy, hp⟩ := h x List.mem_cons_self
    obtain ⟨r, hr, hf⟩ := mapM_spec (l := l) fun z hz => h z (List.mem_cons_of_mem _ hz)
    exact ⟨y :: r, by simp [List.mapM_cons, hy, hr], List.Forall₂.cons hp hf⟩

/-- With a version of NumPy before 2, if the numbers are small enough for the products of the multiples of the greatest number by the
factors not to overflow, the result is the least product of factors that is not less than the number, for all the elements. -/
theorem C82_least_partial {a : List Nat} {factors : List Int} {m : Nat} (hf : factors ≠ []) (hv : ∀ v ∈ factors, 2 ≤ v)
    (hm : m ∈ a) (hmax : ∀ x ∈ a, x ≤ m) (hm1 : 1 ≤ m) (hm53 : m ≤ 2 ^ 53) (hlarge : (factors.map (· * (m : Int))).prod < 2 ^ 63) :
    ∃ r, leastGreater false a factors = some r ∧ List.Forall₂ (IsLeastProduct factors) a r := by
  obtain ⟨fs, rfl⟩ : ∃ fs : List Nat, factors = fs.map Int.ofNat := by
    refine ⟨factors.map Int.toNat, ?_⟩
    rw [List.map_map]
    conv_lhs => rw [← List.map_id factors]
    refine List.map_congr_left fun v hv' => ?_
    have := hv v hv'
    simp; omega
  have hv2 : ∀ v ∈ fs, 2 ≤ v := fun v h => by
    have := hv (Int.ofNat v) (List.mem_map.2 ⟨v, h, rfl⟩); simpa using this
  have hbig : (fs.map (· * m)).prod < 2 ^ 63 := by
    have e : ((fs.map Int.ofNat).map (· * (m : Int))).prod = (((fs.map (· * m)).prod : Nat) : Int) := by
      rw [Nat.cast_list_prod, List.map_map, List.map_map]; congr 1
    rw [e] at hlarge; exact_mod_cast hlarge
  have e0 : (fs.map Int.ofNat).any (· ≤ 0) = false := by
    rw [List.any_eq_false]; intro v h; have := hv v h; simp; omega
  have e1 : a.max? = some m := List.max?_eq_some_iff.2 ⟨hm, hmax⟩
  have e2 : ¬ (fs.map Int.ofNat ≠ [] ∧ m = 0 ∨ (1 : Int) ∈ fs.map Int.ofNat) := by
    rintro (⟨_, h⟩ | h)
    · omega
    · have := hv 1 h; omega
  have e3 : (fs.map Int.ofNat).map Int.toNat = fs := by
    rw [List.map_map]; conv_rhs => rw [← List.map_id fs]
    exact List.map_congr_left fun v _ => by simp
  have e4 : fs.map (maxPower m) = fs.map (Nat.clog · m) := List.map_congr_left fun v _ => maxPower_eq (double_small hm53)
  have hvals : ∀ ps ∈ grid (fs.map (Nat.clog · m)), product 1 fs ps = exact fs ps := fun ps hps => by
    have := exact_bound hv2 hm1 (grid_mem.1 hps)
    have := product_exact (acc := 1) (ps := ps) hv2 (by omega) le_rfl
    simpa using this
  simp only [leastGreater, e0, e1, if_neg e2, e3, e4, Bool.false_eq_true, if_false]
  refine mapM_spec fun x hx => ?_
  -- a value of the grid is not less than the number
  obtain ⟨f, gs, rfl⟩ : ∃ f gs, fs = f :: gs := by
    cases fs with
    | nil => simp at hf
    | cons f gs => exact ⟨f, gs, rfl⟩
  have hz : ∀ gs : List Nat, exact gs (List.replicate gs.length 0) = 1 := by
    intro gs; induction gs with
    | nil => rfl
    | cons g gs ig => simp [List.replicate_succ, exact, ig]
  have hfz : ∀ gs : List Nat, List.Forall₂ (· ≤ ·) (List.replicate gs.length 0) (gs.map (Nat.clog · m)) := by
    intro gs; induction gs with
    | nil => simp
    | cons g gs ig => exact List.Forall₂.cons (Nat.zero_le _) ig
  have hin : Nat.clog f m :: List.replicate gs.length 0 ∈ grid ((f :: gs).map (Nat.clog · m)) :=
    grid_mem.2 (List.Forall₂.cons le_rfl (hfz gs))
  obtain ⟨r, hr, hr1, hr2, hr3⟩ := smallest_spec (v := x) (List.mem_map.2 ⟨_, hin, rfl⟩ : product 1 (f :: gs) (Nat.clog f m :: List.replicate gs.length 0) ∈ _) (by
    rw [hvals _ hin]; simp only [exact, hz, mul_one]
    have := Nat.le_pow_clog (b := f) (by have := hv2 f List.mem_cons_self; omega) m
    have := hmax x hx
    exact_mod_cast (by omega : x ≤ f ^ Nat.clog f m))
  obtain ⟨ps, hps, rfl⟩ := List.mem_map.1 hr1
  refine ⟨_, hr, ?_, hr2, ?_⟩
  · have hl : ps.length = (f :: gs).length := by have := (grid_mem.1 hps).length_eq; simpa using this
    exact isProduct_iff.2 ⟨ps, hl, hvals ps hps⟩
  · intro n hn hxn
    obtain ⟨qs, hql, rfl⟩ := isProduct_iff.1 hn
    rcases exact_cut (m := m) hv2 hql with h | ⟨ts, ht, hmt, htq⟩
    · have hq := grid_mem.2 h
      have := hr3 (product 1 (f :: gs) qs) (List.mem_map.2 ⟨qs, hq, rfl⟩) (by rw [hvals _ hq]; exact hxn)
      rwa [hvals _ hq] at this
    · have ht' := grid_mem.2 ht
      have h3 := hr3 (product 1 (f :: gs) ts) (List.mem_map.2 ⟨ts, ht', rfl⟩) (by
        rw [hvals _ ht']; have := hmax x hx; exact_mod_cast (by omega : x ≤ exact (f :: gs) ts))
      rw [hvals _ ht'] at h3
      exact le_trans h3 (by exact_mod_cast htq)

/-- The example of the documentation: the least product of powers of 2 and 3 that is not less than 2253 is 2304. -/
example : ∃ r, leastGreater false [2253, 1, 100] [2, 3] = some r ∧ List.Forall₂ (IsLeastProduct [2, 3]) [2253, 1, 100] r :=
  C82_least_partial (m := 2253) (by simp) (by simp) (by simp) (by simp) (by norm_num) (by norm_num) (by norm_num)

theorem isProduct_mem {factors : List Int} {v : Int} (h : v ∈ factors) (p : Nat) : IsProduct factors (v ^ p) :=
  Submonoid.pow_mem (Submonoid.closure {v : Int | v ∈ factors}) (Submonoid.subset_closure h) p

theorem isProduct_mul {factors : List Int} {x y : Int} (hx : IsProduct factors x) (hy : IsProduct factors y) :
    IsProduct factors (x * y) := Submonoid.mul_mem (Submonoid.closure {v : Int | v ∈ factors}) hx hy

/-- A prime number that divides a product of factors divides a factor. -/
theorem isProduct_dvd {factors : List Int} {n p : Int} (hp : Prime p) (h : IsProduct factors n) (hd : p ∣ n) : ∃ v ∈ factors, p ∣ v := by
  refine Submonoid.closure_induction (s := {v : Int | v ∈ factors}) (motive := fun n _ => p ∣ n → ∃ v ∈ factors, p ∣ v) ?_ ?_ ?_ h hd
  · intro x hx hp'; exact ⟨x, hx, hp'⟩
  · intro h1; exact absurd (isUnit_of_dvd_one h1) hp.not_isUnit
  · intro x y _ _ h1 h2 h3
    rcases hp.dvd_or_dvd h3 with h4 | h4
    · exact h1 h4
    · exact h2 h4

/-- With NumPy 2, the function always raises an exception. -/
theorem C82_numpy2_fails (a : List Nat) (factors : List Int) : leastGreater true a factors = none := by
  unfold leastGreater
  split
  · rfl
  · split
    · rfl
    · split
      · rfl
      · simp

/-- The factor 1 passes the validation, but the function raises an exception, although there is a least product. -/
theorem C82_one_fails : leastGreater false [5] [1, 2] = none ∧ IsLeastProduct [1, 2] 5 8 := by
  refine ⟨by simp [leastGreater], ⟨isProduct_mem (v := 2) (by simp) 3, by norm_num, ?_⟩⟩
  intro n hn h
  -- the products are powers of two
  have : ∀ n, IsProduct [1, 2] n → ∃ k : Nat, n = 2 ^ k := fun n hn => by
    refine Submonoid.closure_induction (s := {v : Int | v ∈ ([1, 2] : List Int)}) (motive := fun n _ => ∃ k : Nat, n = 2 ^ k) ?_ ?_ ?_ hn
    · intro x hx
      simp only [Set.mem_ofPred_eq, List.mem_cons, List.not_mem_nil, or_false] at hx
      rcases hx with rfl | rfl
      · exact ⟨0, by norm_num⟩
      · exact ⟨1, by norm_num⟩
    · exact ⟨0, by norm_num⟩
    · rintro x y - - ⟨k, rfl⟩ ⟨l, rfl⟩; exact ⟨k + l, by rw [pow_add]⟩
  obtain ⟨k, rfl⟩ := this n hn
  rcases Nat.lt_or_ge k 3 with hk | hk
  · interval_cases k <;> norm_num at h
  · calc (8 : Int) = 2 ^ 3 := by norm_num
      _ ≤ 2 ^ k := pow_le_pow_right₀ (by norm_num) hk

/-- The products that overflow are reduced modulo 2⁶⁴ and the smallest of the values may be one of them: the result is not a product of
factors. -/
theorem C82_overflow_fails : leastGreater false [300000000000000000] [11, 13] = some [321404015565561879] ∧
    ¬ IsProduct [11, 13] 321404015565561879 := by
  have hd : double 300000000000000000 = 300000000000000000 := by decide +kernel
  have h1 : Nat.clog 11 300000000000000000 = 17 := by norm_num
  have h2 : Nat.clog 13 300000000000000000 = 16 := by norm_num
  refine ⟨?_, ?_⟩
  · have hm : ([300000000000000000] : List Nat).max? = some 300000000000000000 := rfl
    simp only [leastGreater, hm, List.map_cons, List.map_nil, maxPower_eq hd]
    rw [if_neg (by decide), if_neg (by decide), show Int.toNat 11 = 11 from rfl, show Int.toNat 13 = 13 from rfl, h1, h2]
    decide +kernel
  · intro h
    obtain ⟨v, hv, hd⟩ := isProduct_dvd Int.prime_three h (by decide)
    simp only [List.mem_cons, List.not_mem_nil, or_false] at hv
    rcases hv with rfl | rfl <;> revert hd <;> decide

/-- The conversion of 2⁵³ + 1 to a floating point number is 2⁵³, the power 54 is missing in the grid and there is no value to be
returned. -/
theorem C82_rounding_fails : leastGreater false [2 ^ 53 + 1] [2] = none ∧ IsLeastProduct [2] (2 ^ 53 + 1) (2 ^ 54) := by
  have hd : double (2 ^ 53 + 1) = 2 ^ 53 := by decide +kernel
  have h1 : maxPower (2 ^ 53 + 1) 2 = 53 := by
    rw [maxPower, hd, Real.log_div_log, Real.natCeil_logb_natCast, Nat.clog_pow _ _ (by norm_num)]
  refine ⟨?_, isProduct_mem (by simp) 54, by norm_num, ?_⟩
  · have hm : ([2 ^ 53 + 1] : List Nat).max? = some (2 ^ 53 + 1) := rfl
    simp only [leastGreater, hm, List.map_cons, List.map_nil, show Int.toNat 2 = 2 from rfl, h1]
    rw [if_neg (by decide), if_neg (by decide)]
    decide +kernel
  · intro n hn h
    obtain ⟨ps, hl, rfl⟩ := isProduct_iff (fs := [2]).1 hn
    obtain ⟨k, rfl⟩ : ∃ k, ps = [k] := List.length_eq_one_iff.1 hl
    simp only [exact, mul_one] at h ⊢
    rcases Nat.lt_or_ge k 54 with hk | hk
    · have : 2 ^ k ≤ 2 ^ 53 := Nat.pow_le_pow_right (by norm_num) (by omega)
      exfalso
      have h' : 2 ^ 53 + 1 ≤ 2 ^ k := by exact_mod_cast h
      omega
    · have : 2 ^ 54 ≤ 2 ^ k := Nat.pow_le_pow_right (by norm_num) hk
      exact_mod_cast this

end Verif.Multiple
