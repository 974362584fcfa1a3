import Verif.Flags.AssocProps
import Verif.Flags.Props

/-
Properties C69 (the flags of the associated operators are true) and C70 (copies keep the associated operators).

The associated operators that are not obtained by a rule are made by `Operator(direct=.., flags=..)` and they are then initialised again by
`_copy_direct_all` or `_copy_reverse_all`: src/pyoperators/core.py:764-1011 and 4776-4830.
-/

namespace Verif.Flags

open Matrix

/-- The flags that are given to the associated operators: src/pyoperators/core.py:783-791 (conjugate), 795-801 (transpose and adjoint),
884-890 (inverse) and 894-899 (conjugate, transpose and adjoint of the inverse). -/
def declaredFor (f : Flags) : Role → Flags
  | .self => f
  | .C => { f with real := false }
  | .T | .H | .I =>
    { linear := f.linear, idempotent := f.idempotent, involutary := f.involutary, orthogonal := f.orthogonal, unitary := f.unitary }
  | .IC | .IT | .IH =>
    { idempotent := f.idempotent, involutary := f.involutary, orthogonal := f.orthogonal, unitary := f.unitary }

/-- The flags of an associated operator that is made from a method.  `Operator(direct=.., flags=..)` has no data type, so that its flags
are those of a real operator (src/pyoperators/core.py:1021-1023).  The second initialisation, with the data type of the operator and without
flags (4776-4830), keeps them and deduces others. -/
def madeFlags (complexDtype : Bool) (f : Flags) (r : Role) : Flags := resetFlags complexDtype (initFlags false (declaredFor f r))

/-- An operator that is given by its methods: it has no unary rule but those of its flags (src/pyoperators/core.py:1106-1128), which are
not looked up since the flags come first. -/
structure Config.Plain {M : Type} (k : Config M) : Prop where
  C : k.ruleC = none
  T : k.ruleT = none
  H : k.ruleH = none
  I : k.ruleI = none
  IC : k.ruleIC = none
  IT : k.ruleIT = none
  IH : k.ruleIH = none

/-- The rule of a flag. -/
def flagRule {M : Type} (b : Bool) : Option (RuleResult M) := if b then some .same else none

/-- The configuration of an associated operator that is made from a method: it has no method, and its rules are those of its flags
(src/pyoperators/core.py:1106-1118). -/
def madeConfig {M : Type} (complexDtype : Bool) (k : Config M) (r : Role) (v : M) : Config M :=
  let f := madeFlags complexDtype k.flags r
  { value := v, flags := f, ruleC := flagRule f.real, ruleT := flagRule f.symmetric, ruleH := flagRule f.hermitian,
    ruleI := flagRule f.involutary }

/-- The copy of an object, which is not linked to the associated operators any more: `copy`, src/pyoperators/core.py:738-753, used by
the composition with the identity (4418-4424), by the addition of zero (4545) and by the composite operators with a single operand (1827). -/
def copyOf {M : Type} (complexDtype : Bool) (k : Config M) (x : Ob M) : Option (Config M) :=
  if x.id = .self then some k else x.val.map (madeConfig complexDtype k x.id)

/-! ### Which operators are made -/

section made

variable {M : Type} (k : Config M) (conj : M → M)

/-- What is known of the flags if an associated operator of this name has been made. -/
def made (f : Flags) : Role → Bool
  | .self => true
  | .C => !f.real
  | .T => !f.symmetric
  | .H => !f.real
  | .I => !f.involutary && !f.orthogonal && !f.unitary
  | .IC => !f.real
  | .IT => !f.orthogonal && !f.symmetric && !f.involutary
  | .IH => !f.real

theorem made_C (h : k.Plain) : made k.flags (k.mkC conj).id = true := by
  unfold Config.mkC
  split
  · rfl
  · rename_i hr; rw [h.C]; simpa [made] using hr

theorem made_T0 (h : k.Plain) (x : Ob M) (hx : k.mkT0 = some x) : made k.flags x.id = true := by
  unfold Config.mkT0 at hx
  rw [h.T, h.H, h.I] at hx
  split at hx
  · cases hx; rfl
  · rename_i hs
    simp only [ite_self] at hx
    cases ht : k.transpose with
    | none => rw [ht] at hx; simp at hx
    | some v => rw [ht] at hx; simp at hx; subst hx; simpa [made] using hs

theorem none_T0 (hx : k.mkT0 = none) : k.flags.symmetric = false := by
  unfold Config.mkT0 at hx
  split at hx
  · simp at hx
  · rename_i hs; simpa using hs

theorem made_H0 (h : k.Plain) (c : Ob M) (t : Option (Ob M)) (hc : made k.flags c.id = true)
    (ht : ∀ x, t = some x → made k.flags x.id = true) (x : Ob M) (hx : k.mkH0 c t = some x) : made k.flags x.id = true := by
  unfold Config.mkH0 at hx
  rw [h.H, h.I] at hx
  split at hx
  · cases hx; rfl
  split at hx
  · cases hx; exact hc
  split at hx
  · exact ht x hx
  · rename_i hr
    simp only [ite_self] at hx
    cases ha : k.adjoint with
    | none => rw [ha] at hx; simp at hx
    | some v => rw [ha] at hx; simp at hx; subst hx; simpa [made] using hr

theorem none_H0 (c : Ob M) (t : Option (Ob M)) (hx : k.mkH0 c t = none) : k.flags.real = true → t = none := by
  intro hr
  unfold Config.mkH0 at hx
  split at hx
  · simp at hx
  split at hx
  · simp at hx
  · simpa [hr] using hx

theorem made_complete (f : Flags) (roleT roleH : Role) (t h : Option (Ob M)) (ht : ∀ x, t = some x → made f x.id = true)
    (hh : ∀ x, h = some x → made f x.id = true) (hT : t = none → made f roleT = true) (hH : f.real = false → made f roleH = true)
    (hn : h = none → f.real = true → t = none) :
    made f (complete conj f.real roleT roleH t h).1.id = true ∧ made f (complete conj f.real roleT roleH t h).2.id = true := by
  unfold complete
  cases t with
  | some t =>
    cases h with
    | some h => exact ⟨ht _ rfl, hh _ rfl⟩
    | none =>
      refine ⟨ht _ rfl, hH ?_⟩
      cases hr : f.real with
      | false => rfl
      | true => simpa using hn rfl hr
  | none =>
    cases h with
    | some h =>
      cases hr : f.real with
      | false => exact ⟨hT rfl, hh _ rfl⟩
      | true => exact ⟨hh _ rfl, hh _ rfl⟩
    | none =>
      cases hr : f.real with
      | false => exact ⟨hT rfl, hH hr⟩
      | true => exact ⟨hT rfl, hT rfl⟩

theorem made_I (h : k.Plain) (t u : Ob M) (ht : made k.flags t.id = true) (hu : made k.flags u.id = true) :
    made k.flags (k.mkI t u).id = true := by
  unfold Config.mkI
  rw [h.I]
  split
  · rfl
  split
  · exact ht
  split
  · exact hu
  · rename_i h1 h2 h3
    simp [made, h1, h2, h3]

theorem made_IC (h : k.Plain) (c t u i : Ob M) (hc : made k.flags c.id = true) (ht : made k.flags t.id = true)
    (hu : made k.flags u.id = true) (hi : made k.flags i.id = true) : made k.flags (k.mkIC conj c t u i).id = true := by
  unfold Config.mkIC
  rw [h.IC]
  split
  · exact hi
  split
  · exact hu
  split
  · exact ht
  split
  · exact hc
  · rename_i h1 _ _ _
    cases k.inverseConjugate <;> simpa [made] using h1

theorem made_IT0 (h : k.Plain) (c t i : Ob M) (hc : made k.flags c.id = true) (ht : made k.flags t.id = true)
    (hi : made k.flags i.id = true) (x : Ob M) (hx : k.mkIT0 c t i = some x) : made k.flags x.id = true := by
  unfold Config.mkIT0 at hx
  rw [h.IT] at hx
  split at hx
  · cases hx; rfl
  split at hx
  · cases hx; exact hi
  split at hx
  · cases hx; exact hc
  split at hx
  · cases hx; exact ht
  · rename_i h1 h2 _ h4
    cases ha : k.inverseTranspose with
    | none => rw [ha] at hx; simp at hx
    | some v => rw [ha] at hx; simp at hx; subst hx; simp [made, h1, h2, h4]

theorem none_IT0 (c t i : Ob M) (hx : k.mkIT0 c t i = none) : made k.flags .IT = true := by
  unfold Config.mkIT0 at hx
  split at hx
  · simp at hx
  split at hx
  · simp at hx
  split at hx
  · simp at hx
  split at hx
  · simp at hx
  · rename_i h1 h2 _ h4
    simp [made, h1, h2, h4]

theorem made_IH0 (h : k.Plain) (c u i ic : Ob M) (it : Option (Ob M)) (hc : made k.flags c.id = true) (hu : made k.flags u.id = true)
    (hi : made k.flags i.id = true) (hic : made k.flags ic.id = true) (hit : ∀ x, it = some x → made k.flags x.id = true) (x : Ob M)
    (hx : k.mkIH0 c u i ic it = some x) : made k.flags x.id = true := by
  unfold Config.mkIH0 at hx
  rw [h.IH] at hx
  split at hx
  · cases hx; rfl
  split at hx
  · cases hx; exact hi
  split at hx
  · cases hx; exact hc
  split at hx
  · cases hx; exact hu
  split at hx
  · cases hx; exact hic
  split at hx
  · exact hit x hx
  · rename_i _ _ _ _ _ h6
    cases ha : k.inverseAdjoint with
    | none => rw [ha] at hx; simp at hx
    | some v => rw [ha] at hx; simp at hx; subst hx; simpa [made] using h6

theorem none_IH0 (c u i ic : Ob M) (it : Option (Ob M)) (hx : k.mkIH0 c u i ic it = none) : k.flags.real = true → it = none := by
  intro hr
  unfold Config.mkIH0 at hx
  split at hx
  · simp at hx
  split at hx
  · simp at hx
  split at hx
  · simp at hx
  split at hx
  · simp at hx
  split at hx
  · simp at hx
  · simpa [hr] using hx

/-- The associated operators of an operator without rules are the operator itself, or they are made only if the flags require it. -/
theorem made_vars (h : k.Plain) (r : Role) : made k.flags ((k.vars conj).get r).id = true := by
  have hc := made_C k conj h
  have ht0 := made_T0 k h
  have hh0 := made_H0 k h (k.mkC conj) k.mkT0 hc ht0
  obtain ⟨ht, hh⟩ := made_complete conj k.flags .T .H k.mkT0 (k.mkH0 (k.mkC conj) k.mkT0) ht0 hh0
    (fun e => by simp [made, none_T0 k e]) (fun e => by simp [made, e]) (none_H0 k _ _)
  have hi := made_I k h _ _ ht hh
  have hic := made_IC k conj h _ _ _ _ hc ht hh hi
  have hit0 := made_IT0 k h _ _ _ hc ht hi
  have hih0 := made_IH0 k h _ _ _ _ _ hc hh hi hic hit0
  obtain ⟨hit, hih⟩ := made_complete conj k.flags .IT .IH _ _ hit0 hih0 (none_IT0 k _ _ _) (fun e => by simp [made, e])
    (none_IH0 k _ _ _ _ _)
  cases r
  · rfl
  · exact hc
  · exact ht
  · exact hh
  · exact hi
  · exact hic
  · exact hit
  · exact hih

end made

/-! ### The flags -/

section flags

variable {n : Type} [Fintype n] [DecidableEq n]

/-- What the operator of this name should compute. -/
noncomputable def meant (A : Matrix n n ℂ) : Role → Matrix n n ℂ
  | .self => A
  | .C => A.map star
  | .T => Aᵀ
  | .H => Aᴴ
  | .I => A⁻¹
  | .IC => A⁻¹.map star
  | .IT => A⁻¹ᵀ
  | .IH => A⁻¹ᴴ

theorem conj_eq (A : Matrix n n ℂ) : conj A = Aᴴᵀ := rfl

theorem TrueOf.transpose {f : Flags} {A : Matrix n n ℂ} (h : TrueOf f A) : TrueOf f Aᵀ := by
  refine ⟨fun e => ?_, fun e => ?_, fun e => ?_, fun e => ?_, fun e => ?_, fun e => ?_, fun e => ?_⟩
  · show (conj A)ᵀ = Aᵀ
    rw [h.real e]
  · rw [h.symmetric e]; exact h.symmetric e
  · have := h.hermitian e
    rw [show Aᵀᴴ = Aᴴᵀ from rfl, this]
  · rw [← transpose_mul, h.idempotent e]
  · rw [← transpose_mul, h.involutary e, transpose_one]
  · rw [transpose_transpose]; exact mul_eq_one_comm.1 (h.orthogonal e)
  · rw [show Aᵀᴴ = Aᴴᵀ from rfl, ← transpose_mul, mul_eq_one_comm.1 (h.unitary e), transpose_one]

theorem TrueOf.inverse {f : Flags} {A : Matrix n n ℂ} (h : TrueOf f A) : TrueOf f A⁻¹ := by
  refine ⟨fun e => ?_, fun e => ?_, fun e => ?_, fun e => ?_, fun e => ?_, fun e => ?_, fun e => ?_⟩
  · have := h.real e
    rw [conj_eq] at this ⊢
    rw [conjTranspose_nonsing_inv, transpose_nonsing_inv, this]
  · rw [transpose_nonsing_inv, h.symmetric e]
  · rw [conjTranspose_nonsing_inv, h.hermitian e]
  · rw [← Matrix.mul_inv_rev, h.idempotent e]
  · rw [← Matrix.mul_inv_rev, h.involutary e, inv_one]
  · rw [transpose_nonsing_inv, ← Matrix.mul_inv_rev, mul_eq_one_comm.1 (h.orthogonal e), inv_one]
  · rw [conjTranspose_nonsing_inv, ← Matrix.mul_inv_rev, mul_eq_one_comm.1 (h.unitary e), inv_one]

theorem TrueOf.declaredFor {f : Flags} {A : Matrix n n ℂ} (h : TrueOf f A) (r : Role) : TrueOf (declaredFor f r) A := by
  cases r <;> refine ⟨?_, ?_, ?_, h.4, h.5, h.6, h.7⟩ <;> first | exact h.1 | exact h.2 | exact h.3 | (intro e; cases e)

/-- The flags of the associated operators of a real operator: the second initialisation does not make a wrong deduction. -/
theorem table_made : ∀ cd l re s h i v o u : Bool, ∀ r : Role,
    (initFlags cd ⟨l, re, s, h, i, v, o, u⟩).real = true → r ≠ .self → made (initFlags cd ⟨l, re, s, h, i, v, o, u⟩) r = true →
    doubtful cd (initFlags false (declaredFor (initFlags cd ⟨l, re, s, h, i, v, o, u⟩) r)) = true →
    (initFlags false (declaredFor (initFlags cd ⟨l, re, s, h, i, v, o, u⟩) r)).idempotent = true := by
  intro cd l re s h i v o u r
  revert cd l re s h i v o u
  cases r <;> decide

/-- The flags of an associated operator. -/
def flagsOf {M : Type} (complexDtype : Bool) (k : Config M) (x : Ob M) : Flags :=
  if x.id = .self then k.flags else madeFlags complexDtype k.flags x.id

theorem madeFlags_true {cd : Bool} {declared f : Flags} {A : Matrix n n ℂ} (hf : f = initFlags cd declared) (hA : TrueOf f A)
    (hr : f.real = true) {r : Role} (hs : r ≠ .self) (hm : made f r = true) : TrueOf (madeFlags cd f r) (meant A r) := by
  have hB : TrueOf f (meant A r) := by
    have hc : conj A = A := hA.real hr
    cases r with
    | self => exact absurd rfl hs
    | T => exact hA.transpose
    | I => exact hA.inverse
    | IT => exact hA.inverse.transpose
    | C | H | IC | IH => simp [made, hr] at hm
  have hd : doubtful false (declaredFor f r) = false ∨ r = .C := by
    cases r <;> simp [doubtful, declaredFor] <;> exact absurd rfl hs
  have h1 : TrueOf (initFlags false (declaredFor f r)) (meant A r) := by
    refine C10_flags_sound_partial false (declaredFor f r) _ (hB.declaredFor r) (fun _ => hB.real hr) ?_
    intro e
    rcases hd with hd | hd
    · rw [hd] at e; cases e
    · subst hd; simp [made, hr] at hm
  refine closure_sound cd _ _ h1 (fun _ => hB.real hr) (fun e => h1.idempotent ?_)
  subst hf
  obtain ⟨a, b, c, d, e', g, i, j⟩ := declared
  exact table_made cd a b c d e' g i j r hr hs hm e

/-- **C69.** The flags of the conjugate, transpose, adjoint and inverse of a real operator, and of their associated operators, are true of
what they should compute, if the flags of the operator are true.  Missing: complex operators, see C69_real_fails and C69_unitary_fails. -/
theorem C69_flags_partial {M : Type} (conj' : M → M) (k : Config M) (hp : k.Plain) {cd : Bool} {declared : Flags}
    (hf : k.flags = initFlags cd declared) (A : Matrix n n ℂ) (hA : TrueOf k.flags A) (hr : k.flags.real = true) (r : Role) :
    TrueOf (flagsOf cd k ((k.vars conj').get r)) (meant A ((k.vars conj').get r).id) := by
  rw [flagsOf]
  split
  · rename_i h; rw [h]; exact hA
  · rename_i h
    exact madeFlags_true hf hA hr h (made_vars k conj' hp r)

end flags

/-! ### The copies -/

section copies

variable {n : Type} [Fintype n] [DecidableEq n]

theorem meant_eq (u : (Matrix n n ℂ)ˣ) (r : Role) :
    meant (u : Matrix n n ℂ) r = ((matrixInvolutions n).meaning u r : (Matrix n n ℂ)ˣ) := by
  cases r <;> simp only [meant, Involutions.meaning, matrixInvolutions, Matrix.coe_units_inv] <;> first | rfl | skip
  all_goals simp only [← Matrix.coe_units_inv]; rfl

theorem flagsTrue_of (f : Flags) (u : (Matrix n n ℂ)ˣ) (h : TrueOf f (u : Matrix n n ℂ)) : FlagsTrue (matrixInvolutions n) f u := by
  have inv : ∀ w : (Matrix n n ℂ)ˣ, (u : Matrix n n ℂ) * w = 1 → (matrixInvolutions n).i u = w := fun w hw =>
    inv_eq_of_mul_eq_one_right (Units.ext hw)
  refine ⟨fun e => Units.ext (h.real e), fun e => Units.ext (h.symmetric e), fun e => Units.ext (h.hermitian e), fun e => ?_, fun e => ?_,
    fun e => ?_⟩
  · exact inv u (h.involutary e)
  · exact inv _ (h.orthogonal e)
  · exact inv _ (h.unitary e)

theorem ruleOK_flag {M : Type} (b : Bool) (m target : M) (h : b = true → target = m) : RuleOK m target (flagRule b) := by
  cases b with
  | false => trivial
  | true => exact (h rfl).symm

theorem madeConfig_sound {cd : Bool} (k : Config (Matrix n n ℂ)ˣ) (r : Role) (v : (Matrix n n ℂ)ˣ)
    (h : TrueOf (madeFlags cd k.flags r) (v : Matrix n n ℂ)) : (madeConfig cd k r v).Sound (matrixInvolutions n) := by
  have hf := flagsTrue_of _ _ h
  have none_ok : ∀ x : (Matrix n n ℂ)ˣ, ∀ w, (none : Option (Matrix n n ℂ)ˣ) = some w → w = x := fun _ _ e => nomatch e
  exact ⟨hf, ruleOK_flag _ _ _ hf.real, ruleOK_flag _ _ _ hf.symmetric, ruleOK_flag _ _ _ hf.hermitian, ruleOK_flag _ _ _ hf.involutary,
    trivial, trivial, trivial, none_ok _, none_ok _, none_ok _, none_ok _, none_ok _, none_ok _⟩

theorem mem_get {M : Type} (v : Vars M) (x : Ob M) (h : v.mem x) : ∃ r, x = v.get r := by
  rcases h with h | h | h | h | h | h | h | h
  · exact ⟨.self, h⟩
  · exact ⟨.C, h⟩
  · exact ⟨.T, h⟩
  · exact ⟨.H, h⟩
  · exact ⟨.I, h⟩
  · exact ⟨.IC, h⟩
  · exact ⟨.IT, h⟩
  · exact ⟨.IH, h⟩

/-- **C70.** If the flags and the methods of a real operator are right, the associated operators of a copy of one of its associated
operators, if they can be evaluated, compute what the associated operators of the original compute.  Missing: the associated operators of
the copy cannot always be evaluated, see C70_direct_fails, and they are wrong for complex operators, see C70_conjugate_fails. -/
theorem C70_copy_partial (k : Config (Matrix n n ℂ)ˣ) (hp : k.Plain) (hs : k.Sound (matrixInvolutions n)) {cd : Bool} {declared : Flags}
    (hf : k.flags = initFlags cd declared) (hA : TrueOf k.flags (k.value : Matrix n n ℂ)) (hr : k.flags.real = true) (p q : List Attr)
    {y : Ob (Matrix n n ℂ)ˣ} (hy : (k.generate (matrixInvolutions n).c).path p k.me = some y) {k' : Config (Matrix n n ℂ)ˣ}
    (hk : copyOf cd k y = some k') :
    ∃ z, (k'.generate (matrixInvolutions n).c).path q k'.me = some z ∧
      ∀ w, z.val = some w → w = (p ++ q).foldl (fun m a => (matrixInvolutions n).act a m) k.value := by
  obtain ⟨y', hy', hmem⟩ := path_total (k.vars (matrixInvolutions n).c) p k.me (Or.inl rfl)
  have hg := path_good _ (good_writes _ (good_vars hs)) p _ _ (good_me (matrixInvolutions n) k) y hy
  have e : y = y' := by
    rw [show (k.vars (matrixInvolutions n).c).writes = k.generate (matrixInvolutions n).c from rfl, hy] at hy'
    exact Option.some.inj hy'
  subst e
  rw [List.foldl_append]
  rw [copyOf] at hk
  split at hk
  · rename_i h
    cases hk
    obtain ⟨z, hz, hv⟩ := C52_chain_value _ k hs q
    refine ⟨z, hz, fun w hw => ?_⟩
    rw [hv w hw, ← hg.1, h]
    rfl
  · rename_i h
    cases hval : y.val with
    | none => rw [hval] at hk; cases hk
    | some v =>
      rw [hval] at hk
      cases hk
      have hv := hg.2 v hval
      obtain ⟨r, hr'⟩ := mem_get _ _ hmem
      have hm := made_vars k (matrixInvolutions n).c hp r
      rw [← hr'] at hm
      have ht := madeFlags_true hf hA hr h hm
      rw [meant_eq, hg.1, ← hv] at ht
      obtain ⟨z, hz, hv'⟩ := C52_chain_value _ _ (madeConfig_sound k y.id v ht) q
      refine ⟨z, hz, fun w hw => ?_⟩
      rw [hv' w hw, ← hv]
      rfl

/-! ### The code violates the properties -/

/-- The product by the imaginary unit. -/
noncomputable def unitI : (Matrix (Fin 1) (Fin 1) ℂ)ˣ :=
  ⟨!![Complex.I], !![-Complex.I], by ext i j; fin_cases i; fin_cases j; simp [Matrix.mul_apply],
    by ext i j; fin_cases i; fin_cases j; simp [Matrix.mul_apply]⟩

/-- The product by the imaginary unit, with the given flags, its transpose and its adjoint. -/
noncomputable def unitIConfig (f : Flags) : Config (Matrix (Fin 1) (Fin 1) ℂ)ˣ :=
  { value := unitI, flags := initFlags true f, transpose := some ((matrixInvolutions (Fin 1)).t unitI)
    adjoint := some ((matrixInvolutions (Fin 1)).c ((matrixInvolutions (Fin 1)).t unitI)) }

theorem unitI_plain (f : Flags) : (unitIConfig f).Plain := ⟨rfl, rfl, rfl, rfl, rfl, rfl, rfl⟩

theorem unitI_sound (f : Flags) (h : TrueOf (initFlags true f) (unitI : Matrix (Fin 1) (Fin 1) ℂ)) :
    (unitIConfig f).Sound (matrixInvolutions (Fin 1)) := by
  have none_ok : ∀ x : (Matrix (Fin 1) (Fin 1) ℂ)ˣ, ∀ w, (none : Option (Matrix (Fin 1) (Fin 1) ℂ)ˣ) = some w → w = x :=
    fun _ _ e => nomatch e
  exact ⟨flagsTrue_of _ _ h, trivial, trivial, trivial, trivial, trivial, trivial, trivial, fun v e => by cases e; rfl,
    fun v e => by cases e; rfl, none_ok _, none_ok _, none_ok _, none_ok _⟩

theorem unitI_linear : TrueOf (initFlags true { linear := true }) (unitI : Matrix (Fin 1) (Fin 1) ℂ) := by
  constructor <;> intro h <;> exact absurd h (by decide)

theorem unitI_unitary : TrueOf (initFlags true { unitary := true }) (unitI : Matrix (Fin 1) (Fin 1) ℂ) := by
  constructor <;> intro h <;> try exact absurd h (by decide)
  ext i j
  fin_cases i; fin_cases j
  simp [unitI, Matrix.mul_apply]

/-- **C69 is violated by the code**: the transpose of a complex operator, given by its methods, has the flag real. -/
theorem C69_real_fails : ∃ (k : Config (Matrix (Fin 1) (Fin 1) ℂ)ˣ) (x : Ob (Matrix (Fin 1) (Fin 1) ℂ)ˣ) (v : (Matrix (Fin 1) (Fin 1) ℂ)ˣ),
    k.Plain ∧ k.Sound (matrixInvolutions (Fin 1)) ∧ k.flags = initFlags true { linear := true } ∧
    (k.generate (matrixInvolutions (Fin 1)).c).path [.T] k.me = some x ∧ x.val = some v ∧ (flagsOf true k x).real = true ∧
    conj (v : Matrix (Fin 1) (Fin 1) ℂ) ≠ v := by
  refine ⟨unitIConfig { linear := true }, _, _, unitI_plain _, unitI_sound _ unitI_linear, rfl, rfl, rfl, by decide, ?_⟩
  intro h
  have := congrArg Complex.im (congrFun (congrFun h 0) 0)
  simp [conj, matrixInvolutions, unitI] at this
  norm_num at this

/-- **C69 is violated by the code**: the adjoint of a complex unitary operator, given by its methods, has the flag orthogonal, so that the
composition of its transpose and of itself is simplified into the identity (src/pyoperators/core.py:1122-1123). -/
theorem C69_unitary_fails : ∃ (k : Config (Matrix (Fin 1) (Fin 1) ℂ)ˣ) (x y : Ob (Matrix (Fin 1) (Fin 1) ℂ)ˣ)
    (v w : (Matrix (Fin 1) (Fin 1) ℂ)ˣ), k.Plain ∧ k.Sound (matrixInvolutions (Fin 1)) ∧ k.flags = initFlags true { unitary := true } ∧
    (k.generate (matrixInvolutions (Fin 1)).c).path [.H] k.me = some x ∧
    (k.generate (matrixInvolutions (Fin 1)).c).path [.H, .T] k.me = some y ∧ x.val = some v ∧ y.val = some w ∧
    (flagsOf true k x).orthogonal = true ∧ w * v ≠ 1 := by
  refine ⟨unitIConfig { unitary := true }, _, _, _, _, unitI_plain _, unitI_sound _ unitI_unitary, rfl, rfl, rfl, rfl, rfl,
    by decide, ?_⟩
  intro h
  have h' : (matrixInvolutions (Fin 1)).c unitI * (matrixInvolutions (Fin 1)).c ((matrixInvolutions (Fin 1)).t unitI) = 1 := h
  have := congrArg (fun u : (Matrix (Fin 1) (Fin 1) ℂ)ˣ => ((u : Matrix (Fin 1) (Fin 1) ℂ) 0 0).re) h'
  simp [matrixInvolutions, unitI, Matrix.mul_apply] at this
  norm_num at this

/-- **C70 is violated by the code**: the conjugate of a copy of the transpose of a complex operator is the transpose. -/
theorem C70_conjugate_fails : ∃ (k k' : Config (Matrix (Fin 1) (Fin 1) ℂ)ˣ) (x y z : Ob (Matrix (Fin 1) (Fin 1) ℂ)ˣ)
    (v w : (Matrix (Fin 1) (Fin 1) ℂ)ˣ), k.Plain ∧ k.Sound (matrixInvolutions (Fin 1)) ∧ k.flags = initFlags true { linear := true } ∧
    (k.generate (matrixInvolutions (Fin 1)).c).path [.T] k.me = some x ∧ copyOf true k x = some k' ∧
    (k.generate (matrixInvolutions (Fin 1)).c).path [.T, .C] k.me = some y ∧ y.val = some v ∧
    (k'.generate (matrixInvolutions (Fin 1)).c).path [.C] k'.me = some z ∧ z.val = some w ∧ v ≠ w := by
  refine ⟨unitIConfig { linear := true }, _, _, _, _, _, _, unitI_plain _, unitI_sound _ unitI_linear, rfl, rfl, rfl, rfl,
    rfl, rfl, rfl, ?_⟩
  intro h
  have h' : (matrixInvolutions (Fin 1)).c ((matrixInvolutions (Fin 1)).t unitI) = (matrixInvolutions (Fin 1)).t unitI := h
  have := congrArg (fun u : (Matrix (Fin 1) (Fin 1) ℂ)ˣ => ((u : Matrix (Fin 1) (Fin 1) ℂ) 0 0).im) h'
  simp [matrixInvolutions, unitI] at this
  norm_num at this

theorem quarter_plain : quarterConfig.Plain := ⟨rfl, rfl, rfl, rfl, rfl, rfl, rfl⟩

/-- **C70 is violated by the code**: the transpose of a copy of the transpose of a real operator, given by its methods, cannot be
evaluated, although the transpose of the transpose can. -/
theorem C70_direct_fails : ∃ (k k' : Config (Matrix (Fin 2) (Fin 2) ℂ)ˣ) (x y z : Ob (Matrix (Fin 2) (Fin 2) ℂ)ˣ),
    k.Plain ∧ k.Sound (matrixInvolutions (Fin 2)) ∧ k.flags.real = true ∧
    (k.generate (matrixInvolutions (Fin 2)).c).path [.T] k.me = some x ∧ copyOf false k x = some k' ∧
    (k.generate (matrixInvolutions (Fin 2)).c).path [.T, .T] k.me = some y ∧ y.val = some k.value ∧
    (k'.generate (matrixInvolutions (Fin 2)).c).path [.T] k'.me = some z ∧ z.val = none :=
  ⟨quarterConfig, _, _, _, _, quarter_plain, quarterConfig_sound, rfl, rfl, rfl, rfl, rfl, rfl, rfl⟩

theorem quarter_true : TrueOf quarterConfig.flags (quarterConfig.value : Matrix (Fin 2) (Fin 2) ℂ) := by
  constructor <;> intro h <;> first | exact absurd h (by decide) | skip
  all_goals
    ext i j
    fin_cases i <;> fin_cases j <;> simp [conj, quarterConfig, quarter, Matrix.mul_apply]

/-- Meeting the hypotheses of C69_flags_partial: the transpose of a quarter turn is orthogonal, as its flags say. -/
example : ((quarterConfig.vars (matrixInvolutions (Fin 2)).c).get .T).id = .T ∧ (madeFlags false quarterConfig.flags .T).orthogonal = true ∧
    TrueOf (madeFlags false quarterConfig.flags .T) (quarter : Matrix (Fin 2) (Fin 2) ℂ)ᵀ :=
  ⟨rfl, by decide, C69_flags_partial (cd := false) (declared := { orthogonal := true }) (matrixInvolutions (Fin 2)).c quarterConfig quarter_plain rfl _
    quarter_true rfl .T⟩

/-- Meeting the hypotheses of C70_copy_partial: the conjugate of a copy of the transpose can be evaluated. -/
example : ∃ k' z, copyOf false quarterConfig ((quarterConfig.vars (matrixInvolutions (Fin 2)).c).get .T) = some k' ∧
    (k'.generate (matrixInvolutions (Fin 2)).c).path [.C] k'.me = some z ∧ z.val = some ((matrixInvolutions (Fin 2)).t quarter) ∧
    ((matrixInvolutions (Fin 2)).t quarter) = (matrixInvolutions (Fin 2)).c ((matrixInvolutions (Fin 2)).t quarter) := by
  refine ⟨_, _, rfl, rfl, rfl, ?_⟩
  obtain ⟨z, hz, hv⟩ := C70_copy_partial (declared := { orthogonal := true }) quarterConfig quarter_plain quarterConfig_sound rfl
    quarter_true rfl [.T] [.C] (y := (quarterConfig.vars (matrixInvolutions (Fin 2)).c).get .T) rfl (cd := false) rfl
  cases hz
  exact hv _ rfl

end copies

end Verif.Flags
