import Mathlib.Analysis.SpecialFunctions.Complex.Arg
import Mathlib.Analysis.Real.Pi.Bounds
import Mathlib.Tactic.Linarith
import Mathlib.Tactic.NormNum

/-
Model of the conversions between unit vectors and spherical coordinates: src/pyoperators/nonlinear.py:44-230 (`_CartesianSpherical`,
`Cartesian2SphericalOperator`, `Spherical2CartesianOperator`) and src/pyoperators/linear.py:77-92 and 960-974 (`DegreesOperator`,
`RadiansOperator`), and property C71.

The numbers are the real numbers.  `arctan2(y, x)` is the argument of the complex number x + iy: the signed zeros of floating point
numbers are not modelled.  An array of shape s + (n,) is the list of its rows of n elements in C order; the shape s plays no role.
-/

namespace Verif.Pointwise

open Real

/-- A row of three cartesian coordinates. -/
structure Vec where
  x : ℝ
  y : ℝ
  z : ℝ

/-- A row of two angles, in the order of the last axis. -/
structure Angles where
  first : ℝ
  second : ℝ

/-- `convention.replace(' ', '').lower()`: src/pyoperators/nonlinear.py:56. -/
def normalise (convention : List Char) : List Char := (convention.filter (· ≠ ' ')).map Char.toLower

/-- `CONVENTIONS`: src/pyoperators/nonlinear.py:46-51. -/
def conventions : List (List Char) :=
  [['z', 'e', 'n', 'i', 't', 'h', ',', 'a', 'z', 'i', 'm', 'u', 't', 'h'],
   ['a', 'z', 'i', 'm', 'u', 't', 'h', ',', 'z', 'e', 'n', 'i', 't', 'h'],
   ['e', 'l', 'e', 'v', 'a', 't', 'i', 'o', 'n', ',', 'a', 'z', 'i', 'm', 'u', 't', 'h'],
   ['a', 'z', 'i', 'm', 'u', 't', 'h', ',', 'e', 'l', 'e', 'v', 'a', 't', 'i', 'o', 'n']]

/-- `a in b` for strings. -/
def contained (a b : List Char) : Bool := b.tails.any (a.isPrefixOf ·)

/-- `self.convention.startswith('azimuth')`: src/pyoperators/nonlinear.py:138 and 217. -/
def azimuthFirst (convention : List Char) : Bool :=
  ['a', 'z', 'i', 'm', 'u', 't', 'h'].isPrefixOf convention

/-- `'elevation' in self.convention`: src/pyoperators/nonlinear.py:143 and 221. -/
def usesElevation (convention : List Char) : Bool :=
  contained ['e', 'l', 'e', 'v', 'a', 't', 'i', 'o', 'n'] convention

/-- `arctan2(y, x)`. -/
noncomputable def arctan2 (y x : ℝ) : ℝ := Complex.arg ⟨x, y⟩

/-- One row of `Cartesian2SphericalOperator.direct`: src/pyoperators/nonlinear.py:137-149. -/
noncomputable def toSpherical (convention : List Char) (v : Vec) : Angles :=
  let o1 := arccos v.z
  let o1 := if usesElevation convention then π / 2 - o1 else o1
  let o2 := arctan2 v.y v.x
  let o2 := if o2 < 0 then o2 + 2 * π else o2
  if azimuthFirst convention then ⟨o2, o1⟩ else ⟨o1, o2⟩

/-- One row of `Spherical2CartesianOperator.direct`: src/pyoperators/nonlinear.py:216-226. -/
noncomputable def toCartesian (convention : List Char) (a : Angles) : Vec :=
  let theta := if azimuthFirst convention then a.second else a.first
  let phi := if azimuthFirst convention then a.first else a.second
  let theta := if usesElevation convention then 1 / 2 * π - theta else theta
  ⟨sin theta * cos phi, sin theta * sin phi, cos theta⟩

/-- `DegreesOperator` and `RadiansOperator`: homotheties of factor 180 / π and π / 180. -/
noncomputable def scale (factor : ℝ) (a : Angles) : Angles := ⟨factor * a.first, factor * a.second⟩

/-- The factors of a composition of conversions.  `scaling` stands for an HomothetyOperator. -/
inductive Factor where
  | c2s (convention : List Char)
  | s2c (convention : List Char)
  | scaling (factor : ℝ)

/-- `_CartesianSpherical.__init__`: src/pyoperators/nonlinear.py:53-63.  `none` is the ValueError. -/
def checked (convention : List Char) : Option (List Char) :=
  let c := normalise convention
  if c ∈ conventions then some c else none

/-- `Cartesian2SphericalOperator(convention, degrees)`, as the list of the factors of a composition:
src/pyoperators/nonlinear.py:107-134. -/
noncomputable def cartesian2spherical (convention : List Char) (degrees : Bool) : Option (List Factor) :=
  (checked convention).map fun c => if degrees then [.scaling (180 / π), .c2s c] else [.c2s c]

/-- `Spherical2CartesianOperator(convention, degrees)`: src/pyoperators/nonlinear.py:186-213. -/
noncomputable def spherical2cartesian (convention : List Char) (degrees : Bool) : Option (List Factor) :=
  (checked convention).map fun c => if degrees then [.s2c c, .scaling (π / 180)] else [.s2c c]

/-- What flows through a composition: a row of three or of two numbers. -/
inductive Row where
  | vec (v : Vec)
  | angles (a : Angles)

/-- A factor applied to a row; `none` is the ValueError of `_validatecartesian` and `_validatespherical`
(src/pyoperators/nonlinear.py:73-81). -/
noncomputable def Factor.apply : Factor → Row → Option Row
  | .c2s c, .vec v => some (.angles (toSpherical c v))
  | .s2c c, .angles a => some (.vec (toCartesian c a))
  | .scaling f, .angles a => some (.angles (scale f a))
  | .scaling f, .vec v => some (.vec ⟨f * v.x, f * v.y, f * v.z⟩)
  | .c2s _, .angles _ => none
  | .s2c _, .vec _ => none

/-- The value of a composition: the last factor is applied first. -/
noncomputable def run : List Factor → Row → Option Row
  | [], r => some r
  | f :: fs, r => (run fs r).bind f.apply

/-- `_rule_identity` on two adjacent factors, and the product of two homotheties (src/pyoperators/nonlinear.py:82-85, 131-133 and
210-212; src/pyoperators/core.py:4349-4388, where an homothety of factor 1 is an IdentityOperator).  `some []` is the identity, which
disappears from the composition. -/
noncomputable def pairRule : Factor → Factor → Option (List Factor)
  | .c2s c, .s2c d => if c = d then some [] else none
  | .s2c c, .c2s d => if c = d then some [] else none
  | .scaling f, .scaling g => if f * g = 1 then some [] else some [.scaling (f * g)]
  | _, _ => none

/-- The simplification of a composition in which the pairs are visited from the right; it stands for the loop of
`CompositionOperator._apply_rules` (src/pyoperators/core.py:2683-2749, modelled for arbitrary rules in Simplify/Model.lean): after a
replacement, the new factor is compared with what follows it. -/
noncomputable def pushFactor (f : Factor) : List Factor → List Factor
  | [] => [f]
  | g :: rest =>
    match pairRule f g with
    | some [] => rest
    | some (h :: _) => h :: rest
    | none => f :: g :: rest

noncomputable def simplified (fs : List Factor) : List Factor := fs.foldr pushFactor []

/-! ### Specification -/

/-- The direction whose zenith angle is theta and whose azimuth is phi: theta is counted from (0, 0, 1), phi from (1, 0, 0) towards
(0, 1, 0). -/
structure Direction (v : Vec) (theta phi : ℝ) : Prop where
  x : v.x = sin theta * cos phi
  y : v.y = sin theta * sin phi
  z : v.z = cos theta

/-- The name of a convention can be written with spaces and capital letters. -/
inductive Spelled : List Char → List Char → Prop
  | nil : Spelled [] []
  | space {s name} : Spelled s name → Spelled (' ' :: s) name
  | letter {s name} (c : Char) : c ≠ ' ' → Spelled s name → Spelled (c :: s) (c.toLower :: name)

/-- The zenith angle and the azimuth written in a convention. -/
noncomputable def written : List Char → ℝ → ℝ → Option Angles
  | ['z', 'e', 'n', 'i', 't', 'h', ',', 'a', 'z', 'i', 'm', 'u', 't', 'h'], theta, phi => some ⟨theta, phi⟩
  | ['a', 'z', 'i', 'm', 'u', 't', 'h', ',', 'z', 'e', 'n', 'i', 't', 'h'], theta, phi => some ⟨phi, theta⟩
  | ['e', 'l', 'e', 'v', 'a', 't', 'i', 'o', 'n', ',', 'a', 'z', 'i', 'm', 'u', 't', 'h'], theta, phi => some ⟨π / 2 - theta, phi⟩
  | ['a', 'z', 'i', 'm', 'u', 't', 'h', ',', 'e', 'l', 'e', 'v', 'a', 't', 'i', 'o', 'n'], theta, phi => some ⟨phi, π / 2 - theta⟩
  | _, _, _ => none

def Vec.Unit (v : Vec) : Prop := v.x ^ 2 + v.y ^ 2 + v.z ^ 2 = 1

/-! ### Proofs -/

theorem spelled_iff {s name : List Char} : Spelled s name ↔ normalise s = name := by
  constructor
  · intro h
    induction h with
    | nil => rfl
    | space _ ih => exact ih
    | letter c hc _ ih => simp [normalise, hc] at ih ⊢; exact ih
  · rintro rfl
    induction s with
    | nil => exact .nil
    | cons c s ih =>
      by_cases hc : c = ' '
      · subst hc; exact .space ih
      · have : normalise (c :: s) = c.toLower :: normalise s := by simp [normalise, hc]
        rw [this]
        exact .letter c hc ih

/-- The azimuth computed for a vector. -/
noncomputable def azimuth (v : Vec) : ℝ := if arctan2 v.y v.x < 0 then arctan2 v.y v.x + 2 * π else arctan2 v.y v.x

theorem azimuth_range (v : Vec) : 0 ≤ azimuth v ∧ azimuth v < 2 * π := by
  have h := Complex.arg_mem_Ioc ⟨v.x, v.y⟩
  have hp := Real.pi_pos
  unfold azimuth arctan2
  split
  · exact ⟨by linarith [h.1], by linarith⟩
  · exact ⟨by linarith, by linarith [h.2]⟩

theorem azimuth_cos_sin (v : Vec) :
    cos (azimuth v) = cos (Complex.arg ⟨v.x, v.y⟩) ∧ sin (azimuth v) = sin (Complex.arg ⟨v.x, v.y⟩) := by
  unfold azimuth arctan2
  split
  · exact ⟨Real.cos_add_two_pi _, Real.sin_add_two_pi _⟩
  · exact ⟨rfl, rfl⟩

theorem plane_norm (x y : ℝ) : ‖(⟨x, y⟩ : ℂ)‖ = √(x ^ 2 + y ^ 2) := by
  rw [Complex.norm_eq_sqrt_sq_add_sq]

theorem direction_of_unit {v : Vec} (h : v.Unit) : Direction v (arccos v.z) (azimuth v) := by
  unfold Vec.Unit at h
  have hz : -1 ≤ v.z ∧ v.z ≤ 1 := by
    constructor <;> nlinarith [sq_nonneg v.x, sq_nonneg v.y]
  have hs : sin (arccos v.z) = ‖(⟨v.x, v.y⟩ : ℂ)‖ := by
    rw [Real.sin_arccos, plane_norm]
    congr 1
    linarith
  refine ⟨?_, ?_, (Real.cos_arccos hz.1 hz.2).symm⟩
  · rw [hs, (azimuth_cos_sin v).1, Complex.norm_mul_cos_arg]
  · rw [hs, (azimuth_cos_sin v).2, Complex.norm_mul_sin_arg]

theorem azimuth_of_direction {v : Vec} {theta phi : ℝ} (h : Direction v theta phi) (ht : 0 < theta) (ht' : theta < π)
    (hp : 0 ≤ phi) (hp' : phi < 2 * π) : azimuth v = phi := by
  have hs : 0 < sin theta := Real.sin_pos_of_pos_of_lt_pi ht ht'
  have hpi := Real.pi_pos
  have key : ∀ t : ℝ, t ∈ Set.Ioc (-π) π → cos t = cos phi → sin t = sin phi → arctan2 v.y v.x = t := by
    intro t m hc hsn
    unfold arctan2
    have : (⟨v.x, v.y⟩ : ℂ) = (sin theta : ℝ) * (Complex.cos t + Complex.sin t * Complex.I) := by
      rw [← Complex.ofReal_cos, ← Complex.ofReal_sin]
      apply Complex.ext
      · simp [h.x, hc, -Complex.ofReal_sin, -Complex.ofReal_cos]
      · simp [h.y, hsn, -Complex.ofReal_sin, -Complex.ofReal_cos]
    rw [this]
    exact Complex.arg_mul_cos_add_sin_mul_I hs m
  by_cases c : phi ≤ π
  · have e := key phi ⟨by linarith, c⟩ rfl rfl
    unfold azimuth
    rw [e, if_neg (by linarith)]
  · have e := key (phi - 2 * π) ⟨by linarith, by linarith⟩ (Real.cos_sub_two_pi _) (Real.sin_sub_two_pi _)
    unfold azimuth
    rw [e, if_pos (by linarith)]
    ring

theorem written_spherical {c : List Char} (hc : c ∈ conventions) (v : Vec) :
    written c (arccos v.z) (azimuth v) = some (toSpherical c v) := by
  simp only [conventions, List.mem_cons, List.not_mem_nil, or_false] at hc
  rcases hc with rfl | rfl | rfl | rfl <;> rfl

theorem written_cartesian {c : List Char} (hc : c ∈ conventions) {theta phi : ℝ} {a : Angles} (h : written c theta phi = some a) :
    Direction (toCartesian c a) theta phi := by
  simp only [conventions, List.mem_cons, List.not_mem_nil, or_false] at hc
  rcases hc with rfl | rfl | rfl | rfl <;> simp only [written, Option.some.injEq] at h <;> subst h
  · exact ⟨rfl, rfl, rfl⟩
  · exact ⟨rfl, rfl, rfl⟩
  · have e : 2⁻¹ * π - (π / 2 - theta) = theta := by ring
    constructor <;> simp [toCartesian, azimuthFirst, usesElevation, contained, e]
  · have e : 2⁻¹ * π - (π / 2 - theta) = theta := by ring
    constructor <;> simp [toCartesian, azimuthFirst, usesElevation, contained, e]

/-- The number of units of angle in a radian. -/
noncomputable def perRadian (degrees : Bool) : ℝ := if degrees then 180 / π else 1

theorem checked_some {s c : List Char} (h : checked s = some c) : c = normalise s ∧ c ∈ conventions := by
  simp only [checked] at h
  split at h
  · rename_i m
    cases h
    exact ⟨rfl, m⟩
  · cases h

theorem c2s_some {s : List Char} {d : Bool} {A : List Factor} (h : cartesian2spherical s d = some A) :
    normalise s ∈ conventions ∧ A = if d then [.scaling (180 / π), .c2s (normalise s)] else [.c2s (normalise s)] := by
  unfold cartesian2spherical at h
  obtain ⟨c, e, rfl⟩ := Option.map_eq_some_iff.1 h
  obtain ⟨rfl, m⟩ := checked_some e
  exact ⟨m, rfl⟩

theorem s2c_some {s : List Char} {d : Bool} {A : List Factor} (h : spherical2cartesian s d = some A) :
    normalise s ∈ conventions ∧ A = if d then [.s2c (normalise s), .scaling (π / 180)] else [.s2c (normalise s)] := by
  unfold spherical2cartesian at h
  obtain ⟨c, e, rfl⟩ := Option.map_eq_some_iff.1 h
  obtain ⟨rfl, m⟩ := checked_some e
  exact ⟨m, rfl⟩

theorem run_append (A B : List Factor) (r : Row) : run (A ++ B) r = (run B r).bind (run A) := by
  induction A with
  | nil => rw [List.nil_append]; cases run B r <;> rfl
  | cons f fs ih =>
    show (run (fs ++ B) r).bind f.apply = _
    rw [ih]
    cases run B r <;> rfl

theorem run_c2s {s : List Char} {d : Bool} {A : List Factor} (h : cartesian2spherical s d = some A) (v : Vec) :
    run A (.vec v) = some (.angles (scale (perRadian d) (toSpherical (normalise s) v))) := by
  obtain ⟨_, rfl⟩ := c2s_some h
  cases d <;> simp [run, Factor.apply, perRadian, scale]

theorem factor_one : π / 180 * (180 / π) = 1 := by
  have := Real.pi_ne_zero
  field_simp

theorem factor_one' : 180 / π * (π / 180) = 1 := by
  have := Real.pi_ne_zero
  field_simp

theorem scale_scale (f g : ℝ) (a : Angles) : scale f (scale g a) = scale (f * g) a := by
  simp [scale, mul_assoc]

theorem scale_one (a : Angles) : scale 1 a = a := by simp [scale]

theorem run_s2c {s : List Char} {d : Bool} {A : List Factor} (h : spherical2cartesian s d = some A) (a : Angles) :
    run A (.angles (scale (perRadian d) a)) = some (.vec (toCartesian (normalise s) a)) := by
  obtain ⟨_, rfl⟩ := s2c_some h
  cases d <;> simp [run, Factor.apply, perRadian, scale_scale, scale_one]

/-- **C71** A conversion operator is built for the four documented conventions, whatever their case and spacing, and for no other. -/
theorem C71_conventions (s : List Char) (d : Bool) :
    ((cartesian2spherical s d).isSome ↔ ∃ name, Spelled s name ∧ ∀ theta phi, (written name theta phi).isSome) ∧
      ((spherical2cartesian s d).isSome ↔ ∃ name, Spelled s name ∧ ∀ theta phi, (written name theta phi).isSome) := by
  simp only [spelled_iff, exists_eq_left']
  have key : normalise s ∈ conventions ↔ ∀ theta phi, (written (normalise s) theta phi).isSome := by
    constructor
    · intro hc theta phi
      simp only [conventions, List.mem_cons, List.not_mem_nil, or_false] at hc
      rcases hc with e | e | e | e <;> rw [e] <;> rfl
    · intro h
      have := h 0 0
      generalize normalise s = c at this ⊢
      unfold written at this
      split at this <;> first | decide | cases this
  constructor
  · rw [← key]
    by_cases m : normalise s ∈ conventions <;> simp [cartesian2spherical, checked, m]
  · rw [← key]
    by_cases m : normalise s ∈ conventions <;> simp [spherical2cartesian, checked, m]

example : (cartesian2spherical ['A', 'z', 'i', 'm', 'u', 't', 'h', ',', ' ', 'Z', 'e', 'n', 'i', 't', 'h'] true).isSome :=
  (C71_conventions _ true).1.2 ⟨['a', 'z', 'i', 'm', 'u', 't', 'h', ',', 'z', 'e', 'n', 'i', 't', 'h'], spelled_iff.2 rfl, fun _ _ => rfl⟩

/-- **C71** For a unit vector, the operator returns the zenith angle (from 0 to π) and the azimuth (from 0 to 2π excluded) of the
vector, written in the convention and the unit of the operator. -/
theorem C71_spherical {s : List Char} {d : Bool} {A : List Factor} (hA : cartesian2spherical s d = some A) {name : List Char}
    (hs : Spelled s name) {v : Vec} (hv : v.Unit) :
    ∃ theta phi a, 0 ≤ theta ∧ theta ≤ π ∧ 0 ≤ phi ∧ phi < 2 * π ∧ Direction v theta phi ∧
      written name theta phi = some a ∧
      run A (.vec v) = some (.angles ⟨perRadian d * a.first, perRadian d * a.second⟩) := by
  obtain rfl := spelled_iff.1 hs
  exact ⟨arccos v.z, azimuth v, toSpherical (normalise s) v, Real.arccos_nonneg _, Real.arccos_le_pi _, (azimuth_range v).1,
    (azimuth_range v).2, direction_of_unit hv, written_spherical (c2s_some hA).1 v, run_c2s hA v⟩

/-- **C71** The vector of two angles is the direction that they define in the convention and the unit of the operator. -/
theorem C71_cartesian {s : List Char} {d : Bool} {A : List Factor} (hA : spherical2cartesian s d = some A) {name : List Char}
    (hs : Spelled s name) {theta phi : ℝ} {a : Angles} (ha : written name theta phi = some a) :
    ∃ v, run A (.angles ⟨perRadian d * a.first, perRadian d * a.second⟩) = some (.vec v) ∧ Direction v theta phi ∧ v.Unit := by
  obtain rfl := spelled_iff.1 hs
  have h := written_cartesian (s2c_some hA).1 ha
  refine ⟨_, run_s2c hA a, h, ?_⟩
  unfold Vec.Unit
  rw [h.x, h.y, h.z]
  have h1 := Real.sin_sq_add_cos_sq theta
  have h2 := Real.sin_sq_add_cos_sq phi
  calc _ = sin theta ^ 2 * (sin phi ^ 2 + cos phi ^ 2) + cos theta ^ 2 := by ring
    _ = 1 := by rw [h2]; linarith

/-- An input of the conversion to spherical coordinates. -/
def Proper (s : List Char) (d : Bool) (a : Angles) : Prop :=
  ∃ name theta phi b, Spelled s name ∧ 0 < theta ∧ theta < π ∧ 0 ≤ phi ∧ phi < 2 * π ∧ written name theta phi = some b ∧
    a = ⟨perRadian d * b.first, perRadian d * b.second⟩

theorem vector_back {c : List Char} (hc : c ∈ conventions) {v : Vec} (hv : v.Unit) : toCartesian c (toSpherical c v) = v := by
  have h := written_cartesian hc (written_spherical hc v)
  have h' := direction_of_unit hv
  cases v
  have e := h.x.trans h'.x.symm
  have e' := h.y.trans h'.y.symm
  have e'' := h.z.trans h'.z.symm
  cases hq : toCartesian c (toSpherical c _)
  simp_all

theorem angles_back {c : List Char} (hc : c ∈ conventions) {theta phi : ℝ} {b : Angles} (ht : 0 < theta) (ht' : theta < π)
    (hp : 0 ≤ phi) (hp' : phi < 2 * π) (hb : written c theta phi = some b) : toSpherical c (toCartesian c b) = b := by
  have h := written_cartesian hc hb
  have e := written_spherical hc (toCartesian c b)
  rw [azimuth_of_direction h ht ht' hp hp', h.z, Real.arccos_cos ht.le ht'.le, hb] at e
  exact (Option.some.inj e).symm

/-- **C71** Converting a unit vector to spherical coordinates and back gives the vector. -/
theorem C71_vector {s t : List Char} {d : Bool} {A B : List Factor} (hA : cartesian2spherical s d = some A)
    (hB : spherical2cartesian t d = some B) {name : List Char} (hs : Spelled s name) (ht : Spelled t name)
    {v : Vec} (hv : v.Unit) :
    run (B ++ A) (.vec v) = some (.vec v) := by
  have hst : normalise s = normalise t := (spelled_iff.1 hs).trans (spelled_iff.1 ht).symm
  rw [run_append, run_c2s hA, Option.bind_some, run_s2c hB, ← hst, vector_back (c2s_some hA).1 hv]

/-- **C71** Converting proper angles to a vector and back gives the angles. -/
theorem C71_angles {s t : List Char} {d : Bool} {A B : List Factor} (hA : cartesian2spherical s d = some A)
    (hB : spherical2cartesian t d = some B) {name : List Char} (hs : Spelled s name) (ht : Spelled t name)
    {a : Angles} (ha : Proper t d a) :
    run (A ++ B) (.angles a) = some (.angles a) := by
  have hst : normalise s = normalise t := (spelled_iff.1 hs).trans (spelled_iff.1 ht).symm
  obtain ⟨name, theta, phi, b, hn, h1, h2, h3, h4, h5, rfl⟩ := ha
  obtain rfl := spelled_iff.1 hn
  have := run_s2c hB b
  rw [run_append]
  show (run B (.angles (scale (perRadian d) b))).bind _ = _
  rw [this, Option.bind_some, run_c2s hA, hst, angles_back (s2c_some hB).1 h1 h2 h3 h4 h5]
  rfl

theorem simplified_vec {s t : List Char} {d : Bool} {A B : List Factor} (hA : cartesian2spherical s d = some A)
    (hB : spherical2cartesian t d = some B) (c : normalise t = normalise s) : simplified (B ++ A) = [] := by
  obtain ⟨_, rfl⟩ := c2s_some hA
  obtain ⟨_, rfl⟩ := s2c_some hB
  cases d <;> simp [simplified, pushFactor, pairRule, c]

theorem simplified_vec_run {s t : List Char} {d e : Bool} {A B : List Factor} (hA : cartesian2spherical s d = some A)
    (hB : spherical2cartesian t e = some B) (c : ¬(normalise t = normalise s ∧ d = e)) (v : Vec) :
    run (simplified (B ++ A)) (.vec v) = run (B ++ A) (.vec v) := by
  obtain ⟨_, rfl⟩ := c2s_some hA
  obtain ⟨_, rfl⟩ := s2c_some hB
  cases d <;> cases e
  · have c' : normalise t ≠ normalise s := by simpa using c
    simp [simplified, pushFactor, pairRule, c']
  · simp [simplified, pushFactor, pairRule]
  · simp [simplified, pushFactor, pairRule]
  · have c' : normalise t ≠ normalise s := by simpa using c
    simp [simplified, pushFactor, pairRule, c', run, Factor.apply, scale_scale, scale_one]

theorem simplified_angles {s t : List Char} {d e : Bool} {A B : List Factor} (hA : cartesian2spherical s d = some A)
    (hB : spherical2cartesian t e = some B) (c : normalise s = normalise t) :
    simplified (A ++ B) = if d = e then [] else if d then [.scaling (180 / π)] else [.scaling (π / 180)] := by
  obtain ⟨_, rfl⟩ := c2s_some hA
  obtain ⟨_, rfl⟩ := s2c_some hB
  cases d <;> cases e <;> simp [simplified, pushFactor, pairRule, c]

theorem simplified_angles_ne {s t : List Char} {d e : Bool} {A B : List Factor} (hA : cartesian2spherical s d = some A)
    (hB : spherical2cartesian t e = some B) (c : normalise s ≠ normalise t) : simplified (A ++ B) = A ++ B := by
  obtain ⟨_, rfl⟩ := c2s_some hA
  obtain ⟨_, rfl⟩ := s2c_some hB
  cases d <;> cases e <;> simp [simplified, pushFactor, pairRule, c]

/-- **C71** Simplifying the composition of two opposite conversions keeps its value for the unit vectors, and for the angles that are
neither on the polar axis nor outside the range of the azimuth.  Missing: the other vectors and angles, see `C71_simplify_fails`. -/
theorem C71_simplify_partial {s t : List Char} {d e : Bool} {A B : List Factor} (hA : cartesian2spherical s d = some A)
    (hB : spherical2cartesian t e = some B) :
    (∀ v : Vec, v.Unit → run (simplified (B ++ A)) (.vec v) = run (B ++ A) (.vec v)) ∧
      ∀ a, Proper t e a → run (simplified (A ++ B)) (.angles a) = run (A ++ B) (.angles a) := by
  constructor
  · intro v hv
    by_cases c : normalise t = normalise s ∧ d = e
    · obtain ⟨c, rfl⟩ := c
      rw [simplified_vec hA hB c, C71_vector hA hB (spelled_iff.2 c.symm) (spelled_iff.2 rfl) hv]
      rfl
    · exact simplified_vec_run hA hB c v
  · intro a ha
    by_cases c : normalise s = normalise t
    · rw [simplified_angles hA hB c]
      obtain ⟨name, theta, phi, b, hn, h1, h2, h3, h4, h5, rfl⟩ := ha
      obtain rfl := spelled_iff.1 hn
      have := run_s2c hB b
      rw [run_append]
      show _ = (run B (.angles (scale (perRadian e) b))).bind _
      rw [this, Option.bind_some, run_c2s hA, c, angles_back (s2c_some hB).1 h1 h2 h3 h4 h5]
      cases d <;> cases e <;> simp [run, Factor.apply, perRadian, scale, factor_one, ← mul_assoc]
    · rw [simplified_angles_ne hA hB c]

/-- **C71** Simplifying conversions of units that follow each other keeps their value. -/
theorem C71_units (fs : List ℝ) (r : Row) : run (simplified (fs.map .scaling)) r = run (fs.map .scaling) r := by
  have key : ∀ fs : List ℝ, ∃ gs : List ℝ, simplified (fs.map .scaling) = gs.map .scaling ∧
      ∀ r, run (gs.map .scaling) r = run (fs.map .scaling) r := by
    intro fs
    induction fs with
    | nil => exact ⟨[], rfl, fun _ => rfl⟩
    | cons f fs ih =>
      obtain ⟨gs, h1, h2⟩ := ih
      have e : simplified ((f :: fs).map .scaling) = pushFactor (.scaling f) (gs.map .scaling) := by
        rw [← h1]; rfl
      have e' : ∀ r, run ((f :: fs).map .scaling) r = run ((f :: gs).map .scaling) r := by
        intro r
        simp only [List.map_cons, run, h2]
      rw [e]
      cases gs with
      | nil => exact ⟨[f], rfl, fun r => (e' r).symm⟩
      | cons g gs =>
        have hfg : ∀ q : Row, (Factor.apply (.scaling g) q).bind (Factor.apply (.scaling f)) = Factor.apply (.scaling (f * g)) q := by
          intro q
          cases q <;> simp [Factor.apply, scale, mul_assoc]
        have e'' : ∀ r, run ((f :: g :: gs).map .scaling) r = run (((f * g) :: gs).map .scaling) r := by
          intro r
          simp only [List.map_cons, run, Option.bind_assoc, hfg]
        by_cases h : f * g = 1
        · refine ⟨gs, by simp [pushFactor, pairRule, h], fun r => ?_⟩
          rw [e', e'', h]
          simp only [List.map_cons, run]
          cases run (gs.map .scaling) r with
          | none => rfl
          | some q => cases q <;> simp [Factor.apply, scale]
        · exact ⟨(f * g) :: gs, by simp [pushFactor, pairRule, h], fun r => by rw [e', e'']⟩
  obtain ⟨gs, h1, h2⟩ := key fs
  rw [h1, h2]

example : run (simplified ([180 / π, 2, 3].map .scaling)) (.angles ⟨1, 0⟩) = run ([180 / π, 2, 3].map .scaling) (.angles ⟨1, 0⟩) :=
  C71_units _ _

def zenithAzimuth : List Char := ['z', 'e', 'n', 'i', 't', 'h', ',', 'a', 'z', 'i', 'm', 'u', 't', 'h']

/-- The diagonal of the first octant is a unit vector with proper angles. -/
example : (⟨2 / 3, 2 / 3, 1 / 3⟩ : Vec).Unit ∧ Proper zenithAzimuth true ⟨180 / π * (π / 3), 180 / π * π⟩ := by
  have := Real.pi_pos
  refine ⟨?_, zenithAzimuth, π / 3, π, ⟨π / 3, π⟩, spelled_iff.2 rfl, by linarith, by linarith, by linarith, by linarith, rfl, by simp [perRadian]⟩
  unfold Vec.Unit
  norm_num

/-- **C71** The composition is simplified into the identity although its value is another one: for a vector that is not a unit vector
(it is projected onto the sphere), for an azimuth outside [0, 2π) (it is brought back into this range) and for a zenith angle of 0
(the azimuth is lost). -/
theorem C71_simplify_fails :
    ∃ A B, cartesian2spherical zenithAzimuth false = some A ∧ spherical2cartesian zenithAzimuth false = some B ∧
      (∃ v, run (simplified (B ++ A)) (.vec v) ≠ run (B ++ A) (.vec v)) ∧
      (∃ a, run (simplified (A ++ B)) (.angles a) ≠ run (A ++ B) (.angles a) ∧ 0 < a.first ∧ a.first < π) ∧
      (∃ a, run (simplified (A ++ B)) (.angles a) ≠ run (A ++ B) (.angles a) ∧ 0 ≤ a.second ∧ a.second < 2 * π) := by
  have hp := Real.pi_pos
  have hA : cartesian2spherical zenithAzimuth false = some [.c2s zenithAzimuth] := rfl
  have hB : spherical2cartesian zenithAzimuth false = some [.s2c zenithAzimuth] := rfl
  have e : ∀ a, run (simplified ([.c2s zenithAzimuth] ++ [.s2c zenithAzimuth])) (.angles a) = some (.angles a) := by
    intro a
    rw [simplified_angles hA hB rfl]
    rfl
  refine ⟨_, _, hA, hB, ⟨⟨2, 0, 0⟩, ?_⟩, ⟨⟨π / 2, -1⟩, ?_, by simp only; linarith, by simp only; linarith⟩, ⟨⟨0, 1⟩, ?_, by simp, ?_⟩⟩
  · rw [simplified_vec hA hB rfl]
    intro h
    have h' : (2 : ℝ) = sin (arccos 0) * cos (azimuth ⟨2, 0, 0⟩) := congrArg Vec.x (Row.vec.inj (Option.some.inj h))
    rw [Real.arccos_zero, Real.sin_pi_div_two] at h'
    linarith [Real.cos_le_one (azimuth ⟨2, 0, 0⟩)]
  · rw [e]
    intro h
    have h' : (-1 : ℝ) = azimuth (toCartesian zenithAzimuth ⟨π / 2, -1⟩) :=
      congrArg Angles.second (Row.angles.inj (Option.some.inj h))
    linarith [(azimuth_range (toCartesian zenithAzimuth ⟨π / 2, -1⟩)).1]
  · rw [e]
    intro h
    have h' : (1 : ℝ) = azimuth (toCartesian zenithAzimuth ⟨0, 1⟩) :=
      congrArg Angles.second (Row.angles.inj (Option.some.inj h))
    have : toCartesian zenithAzimuth ⟨0, 1⟩ = ⟨0, 0, 1⟩ := by
      show Vec.mk (sin 0 * cos 1) (sin 0 * sin 1) (cos 0) = _
      simp
    rw [this] at h'
    have z : arctan2 0 0 = 0 := by
      unfold arctan2
      exact Complex.arg_zero
    simp [azimuth, z] at h'
  · simp only
    linarith [Real.pi_gt_three]

end Verif.Pointwise
