import Verif.Flags.Assoc
import Mathlib.LinearAlgebra.Matrix.ConjTranspose
import Mathlib.Data.Complex.Basic
import Mathlib.LinearAlgebra.Matrix.Notation
import Mathlib.Tactic.FinCases

/-
Property C11 (the associated operators are consistent as objects) and C52 (they compute what their names say).
-/

namespace Verif.Flags

/-- The conjugate, the transpose and the inverse of the things that operators compute: commuting involutions. -/
structure Involutions (M : Type) where
  c : M → M
  t : M → M
  i : M → M
  cc : ∀ x, c (c x) = x
  tt : ∀ x, t (t x) = x
  ii : ∀ x, i (i x) = x
  ct : ∀ x, c (t x) = t (c x)
  ci : ∀ x, c (i x) = i (c x)
  ti : ∀ x, t (i x) = i (t x)

/-- The things that the attributes should compute. -/
def Involutions.act {M : Type} (s : Involutions M) : Attr → M → M
  | .C, x => s.c x
  | .T, x => s.t x
  | .H, x => s.c (s.t x)
  | .I, x => s.i x

/-- What the variable of this name should compute. -/
def Involutions.meaning {M : Type} (s : Involutions M) (m : M) : Role → M
  | .self => m
  | .C => s.c m
  | .T => s.t m
  | .H => s.c (s.t m)
  | .I => s.i m
  | .IC => s.c (s.i m)
  | .IT => s.t (s.i m)
  | .IH => s.c (s.t (s.i m))

variable {M : Type}

/-- The flags are true of what the operator computes. -/
structure FlagsTrue (s : Involutions M) (f : Flags) (m : M) : Prop where
  real : f.real = true → s.c m = m
  symmetric : f.symmetric = true → s.t m = m
  hermitian : f.hermitian = true → s.c (s.t m) = m
  involutary : f.involutary = true → s.i m = m
  orthogonal : f.orthogonal = true → s.i m = s.t m
  unitary : f.unitary = true → s.i m = s.c (s.t m)

/-- A rule computes what it should. -/
def RuleOK (m target : M) : Option (RuleResult M) → Prop
  | none => True
  | some .same => m = target
  | some (.fresh v) => v = target

/-- The flags, the rules and the methods given by the user are right. -/
structure Config.Sound (s : Involutions M) (k : Config M) : Prop where
  flags : FlagsTrue s k.flags k.value
  ruleC : RuleOK k.value (s.act .C k.value) k.ruleC
  ruleT : RuleOK k.value (s.act .T k.value) k.ruleT
  ruleH : RuleOK k.value (s.act .H k.value) k.ruleH
  ruleI : RuleOK k.value (s.act .I k.value) k.ruleI
  ruleIC : RuleOK k.value (s.act .C (s.act .I k.value)) k.ruleIC
  ruleIT : RuleOK k.value (s.act .T (s.act .I k.value)) k.ruleIT
  ruleIH : RuleOK k.value (s.act .H (s.act .I k.value)) k.ruleIH
  transpose : ∀ v, k.transpose = some v → v = s.act .T k.value
  adjoint : ∀ v, k.adjoint = some v → v = s.act .H k.value
  inverse : ∀ v, k.inverse = some v → v = s.act .I k.value
  inverseConjugate : ∀ v, k.inverseConjugate = some v → v = s.act .C (s.act .I k.value)
  inverseTranspose : ∀ v, k.inverseTranspose = some v → v = s.act .T (s.act .I k.value)
  inverseAdjoint : ∀ v, k.inverseAdjoint = some v → v = s.act .H (s.act .I k.value)

section values

variable (s : Involutions M) (k : Config M)

/-- The object is right for something: its name and what it computes. -/
def Good (x : Ob M) (target : M) : Prop := s.meaning k.value x.id = target ∧ ∀ v, x.val = some v → v = target

theorem good_me : Good s k k.me k.value := by
  refine ⟨rfl, ?_⟩
  rintro v ⟨⟩
  rfl

theorem Good.cast {x : Ob M} {a b : M} (h : Good s k x a) (e : a = b) : Good s k x b := e ▸ h

theorem good_apply (r : RuleResult M) (role : Role) (target : M) (hr : s.meaning k.value role = target)
    (h : RuleOK k.value target (some r)) : Good s k (k.apply role r) target := by
  cases r with
  | same => exact (good_me s k).cast s k h
  | fresh v =>
    refine ⟨hr, ?_⟩
    rintro w ⟨⟩
    exact h

theorem good_new (role : Role) (v : Option M) (target : M) (hr : s.meaning k.value role = target)
    (h : ∀ w, v = some w → w = target) : Good s k ⟨role, v⟩ target := ⟨hr, h⟩

theorem good_map (x : Ob M) (a : M) (role : Role) (target : M) (hx : Good s k x a)
    (hr : s.meaning k.value role = target) (e : s.c a = target) : Good s k ⟨role, x.val.map s.c⟩ target := by
  refine ⟨hr, ?_⟩
  intro w hw
  change x.val.map s.c = some w at hw
  cases hv : x.val with
  | none => rw [hv] at hw; simp at hw
  | some v =>
    rw [hv] at hw
    simp at hw
    rw [← hw, hx.2 v hv, e]

variable {s k}

theorem good_C (h : k.Sound s) : Good s k (k.mkC s.c) (s.c k.value) := by
  unfold Config.mkC
  split
  · rename_i hr
    exact (good_me s k).cast s k (h.flags.real hr).symm
  · split
    · rename_i r hr
      exact good_apply s k r .C _ rfl (hr ▸ h.ruleC)
    · exact good_new s k .C _ _ rfl (by rintro w ⟨⟩; rfl)

theorem good_T0 (h : k.Sound s) (x : Ob M) (hx : k.mkT0 = some x) : Good s k x (s.t k.value) := by
  unfold Config.mkT0 at hx
  split at hx
  · rename_i hs
    cases hx
    exact (good_me s k).cast s k (h.flags.symmetric hs).symm
  · split at hx
    · rename_i r hr
      cases hx
      exact good_apply s k r .T _ rfl (hr ▸ h.ruleT)
    · rename_i r _ hr
      cases hx
      split at hr
      · rename_i hreal
        refine good_apply s k r .T _ rfl ?_
        have e : s.t k.value = s.c (s.t k.value) := by rw [s.ct, h.flags.real hreal]
        rw [e]
        exact hr ▸ h.ruleH
      · cases hr
    · rename_i r _ _ hr
      cases hx
      split at hr
      · rename_i ho
        refine good_apply s k r .T _ rfl ?_
        rw [← h.flags.orthogonal ho]
        exact hr ▸ h.ruleI
      · cases hr
    · split at hx
      · rename_i v hv
        cases hx
        exact good_new s k .T _ _ rfl (by rintro w ⟨⟩; exact h.transpose _ hv)
      · cases hx

theorem good_H0 (h : k.Sound s) (c : Ob M) (hc : Good s k c (s.c k.value)) (t : Option (Ob M))
    (ht : ∀ x, t = some x → Good s k x (s.t k.value)) (x : Ob M) (hx : k.mkH0 c t = some x) :
    Good s k x (s.c (s.t k.value)) := by
  unfold Config.mkH0 at hx
  split at hx
  · rename_i hs
    cases hx
    exact (good_me s k).cast s k (h.flags.hermitian hs).symm
  split at hx
  · rename_i hs
    cases hx
    exact hc.cast s k (by rw [h.flags.symmetric hs])
  split at hx
  · rename_i hs
    exact (ht x hx).cast s k (by rw [s.ct, h.flags.real hs])
  · split at hx
    · rename_i r hr
      cases hx
      exact good_apply s k r .H _ rfl (hr ▸ h.ruleH)
    · rename_i r _ hr
      cases hx
      split at hr
      · rename_i ho
        refine good_apply s k r .H _ rfl ?_
        rw [← h.flags.unitary ho]
        exact hr ▸ h.ruleI
      · cases hr
    · split at hx
      · rename_i v hv
        cases hx
        exact good_new s k .H _ _ rfl (by rintro w ⟨⟩; exact h.adjoint _ hv)
      · cases hx

theorem good_complete (real : Bool) (roleT roleH : Role) (a : M) (t h : Option (Ob M))
    (hreal : real = true → s.c a = a)
    (hT : s.meaning k.value roleT = a) (hH : s.meaning k.value roleH = s.c a)
    (ht : ∀ x, t = some x → Good s k x a) (hh : ∀ x, h = some x → Good s k x (s.c a)) :
    Good s k (complete s.c real roleT roleH t h).1 a ∧ Good s k (complete s.c real roleT roleH t h).2 (s.c a) := by
  unfold complete
  split
  · rename_i x y
    exact ⟨ht x rfl, hh y rfl⟩
  · rename_i x
    exact ⟨ht x rfl, good_map s k x a _ _ (ht x rfl) hH rfl⟩
  · rename_i x
    split
    · rename_i hr
      exact ⟨(hh x rfl).cast s k (hreal hr), hh x rfl⟩
    · exact ⟨good_map s k x (s.c a) _ _ (hh x rfl) hT (s.cc a), hh x rfl⟩
  · have h1 : Good s k ⟨roleT, none⟩ a := good_new s k _ _ _ hT (by rintro w ⟨⟩)
    dsimp only
    split
    · rename_i hr
      exact ⟨h1, h1.cast s k (hreal hr).symm⟩
    · exact ⟨h1, good_new s k _ _ _ hH (by rintro w ⟨⟩)⟩

theorem good_I (h : k.Sound s) (t u : Ob M) (ht : Good s k t (s.t k.value)) (hu : Good s k u (s.c (s.t k.value))) :
    Good s k (k.mkI t u) (s.i k.value) := by
  unfold Config.mkI
  split
  · rename_i hs
    exact (good_me s k).cast s k (h.flags.involutary hs).symm
  split
  · rename_i hs
    exact ht.cast s k (h.flags.orthogonal hs).symm
  split
  · rename_i hs
    exact hu.cast s k (h.flags.unitary hs).symm
  split
  · rename_i r hr
    exact good_apply s k r .I _ rfl (hr ▸ h.ruleI)
  · exact good_new s k .I _ _ rfl (fun w hw => h.inverse w hw)

theorem good_IC (h : k.Sound s) (c t u i : Ob M) (hc : Good s k c (s.c k.value)) (ht : Good s k t (s.t k.value))
    (hu : Good s k u (s.c (s.t k.value))) (hi : Good s k i (s.i k.value)) :
    Good s k (k.mkIC s.c c t u i) (s.c (s.i k.value)) := by
  unfold Config.mkIC
  split
  · rename_i hs
    exact hi.cast s k (by rw [s.ci, h.flags.real hs])
  split
  · rename_i hs
    exact hu.cast s k (by rw [h.flags.orthogonal hs])
  split
  · rename_i hs
    exact ht.cast s k (by rw [h.flags.unitary hs, s.cc])
  split
  · rename_i hs
    exact hc.cast s k (by rw [h.flags.involutary hs])
  split
  · rename_i r hr
    exact good_apply s k r .IC _ rfl (hr ▸ h.ruleIC)
  split
  · rename_i v hv
    exact good_new s k .IC _ _ rfl (by rintro w ⟨⟩; exact h.inverseConjugate _ hv)
  · exact good_map s k i _ _ _ hi rfl rfl

theorem good_IT0 (h : k.Sound s) (c t i : Ob M) (hc : Good s k c (s.c k.value)) (ht : Good s k t (s.t k.value))
    (hi : Good s k i (s.i k.value)) (x : Ob M) (hx : k.mkIT0 c t i = some x) : Good s k x (s.t (s.i k.value)) := by
  unfold Config.mkIT0 at hx
  split at hx
  · rename_i hs
    cases hx
    exact (good_me s k).cast s k (by rw [h.flags.orthogonal hs, s.tt])
  split at hx
  · rename_i hs
    cases hx
    exact hi.cast s k (by rw [s.ti, h.flags.symmetric hs])
  split at hx
  · rename_i hs
    cases hx
    exact hc.cast s k (by rw [h.flags.unitary hs, s.ct, s.tt])
  split at hx
  · rename_i hs
    cases hx
    exact ht.cast s k (by rw [h.flags.involutary hs])
  split at hx
  · rename_i r hr
    cases hx
    exact good_apply s k r .IT _ rfl (hr ▸ h.ruleIT)
  split at hx
  · rename_i v hv
    cases hx
    exact good_new s k .IT _ _ rfl (by rintro w ⟨⟩; exact h.inverseTranspose _ hv)
  · cases hx

theorem good_IH0 (h : k.Sound s) (c u i ic : Ob M) (it : Option (Ob M)) (hc : Good s k c (s.c k.value))
    (hu : Good s k u (s.c (s.t k.value))) (hi : Good s k i (s.i k.value)) (hic : Good s k ic (s.c (s.i k.value)))
    (hit : ∀ x, it = some x → Good s k x (s.t (s.i k.value))) (x : Ob M)
    (hx : k.mkIH0 c u i ic it = some x) : Good s k x (s.c (s.t (s.i k.value))) := by
  unfold Config.mkIH0 at hx
  split at hx
  · rename_i hs
    cases hx
    exact (good_me s k).cast s k (by rw [h.flags.unitary hs, ← s.ct (s.t _), s.tt, s.cc])
  split at hx
  · rename_i hs
    cases hx
    exact hi.cast s k (by rw [s.ti, s.ci, h.flags.hermitian hs])
  split at hx
  · rename_i hs
    cases hx
    exact hc.cast s k (by rw [h.flags.orthogonal hs, s.tt])
  split at hx
  · rename_i hs
    cases hx
    exact hu.cast s k (by rw [h.flags.involutary hs])
  split at hx
  · rename_i hs
    cases hx
    exact hic.cast s k (by rw [s.ti, h.flags.symmetric hs])
  split at hx
  · rename_i hs
    exact (hit x hx).cast s k (by rw [s.ct, s.ci, h.flags.real hs])
  split at hx
  · rename_i r hr
    cases hx
    exact good_apply s k r .IH _ rfl (hr ▸ h.ruleIH)
  split at hx
  · rename_i v hv
    cases hx
    exact good_new s k .IH _ _ rfl (by rintro w ⟨⟩; exact h.inverseAdjoint _ hv)
  · cases hx

/-- The eight variables are right. -/
structure GoodVars (s : Involutions M) (k : Config M) (v : Vars M) : Prop where
  self : Good s k v.self k.value
  C : Good s k v.C (s.c k.value)
  T : Good s k v.T (s.t k.value)
  H : Good s k v.H (s.c (s.t k.value))
  I : Good s k v.I (s.i k.value)
  IC : Good s k v.IC (s.c (s.i k.value))
  IT : Good s k v.IT (s.t (s.i k.value))
  IH : Good s k v.IH (s.c (s.t (s.i k.value)))

theorem good_vars (h : k.Sound s) : GoodVars s k (k.vars s.c) := by
  have hc := good_C h
  have ht0 := good_T0 h
  have hh0 := good_H0 h _ hc _ ht0
  have hth := good_complete (s := s) (k := k) k.flags.real .T .H (s.t k.value) _ _
    (fun hr => by rw [s.ct, h.flags.real hr]) rfl rfl ht0 hh0
  have hi := good_I h _ _ hth.1 hth.2
  have hic := good_IC h _ _ _ _ hc hth.1 hth.2 hi
  have hit0 := good_IT0 h _ _ _ hc hth.1 hi
  have hih0 := good_IH0 h _ _ _ _ _ hc hth.2 hi hic hit0
  have hith := good_complete (s := s) (k := k) k.flags.real .IT .IH (s.t (s.i k.value)) _ _
    (fun hr => by rw [s.ct, s.ci, h.flags.real hr]) rfl rfl hit0 hih0
  exact ⟨good_me s k, hc, hth.1, hth.2, hi, hic, hith.1, hith.2⟩

/-- The attributes of an object are right. -/
def GoodAttrs (s : Involutions M) (k : Config M) (x : M) (a : Attrs M) : Prop := ∀ r, Good s k (a.get r) (s.act r x)

/-- All the attributes that have been set are right. -/
def GoodHeap (s : Involutions M) (k : Config M) (h : Heap M) : Prop :=
  ∀ r a, h r = some a → GoodAttrs s k (s.meaning k.value r) a

theorem GoodHeap.write {h : Heap M} (hh : GoodHeap s k h) (x : Ob M) (t : M) (hx : Good s k x t) (a : Attrs M)
    (ha : GoodAttrs s k t a) : GoodHeap s k (h.write x a) := by
  intro r b hb
  unfold Heap.write at hb
  split at hb
  · rename_i e
    cases hb
    rw [e, hx.1]
    exact ha
  · exact hh r b hb

theorem good_writes (v : Vars M) (hv : GoodVars s k v) : GoodHeap s k v.writes := by
  have h0 : GoodHeap s k (fun _ => none) := by rintro r a ⟨⟩
  unfold Vars.writes
  dsimp only
  refine ((((((((h0.write _ _ hv.self _ ?_).write _ _ hv.C _ ?_).write _ _ hv.T _ ?_).write _ _ hv.H _ ?_).write _ _
    hv.I _ ?_).write _ _ hv.IC _ ?_).write _ _ hv.IT _ ?_).write _ _ hv.IH _ ?_)
  all_goals
    intro r
    cases r
  · exact hv.C
  · exact hv.T
  · exact hv.H
  · exact hv.I
  · exact hv.self.cast s k (s.cc _).symm
  · exact hv.H.cast s k (s.ct _)
  · exact hv.T.cast s k (by simp only [Involutions.act]; rw [← s.ct, s.cc])
  · exact hv.IC.cast s k (s.ci _)
  · exact hv.H
  · exact hv.self.cast s k (s.tt _).symm
  · exact hv.C.cast s k (by simp only [Involutions.act]; rw [s.tt])
  · exact hv.IT.cast s k (s.ti _)
  · exact hv.T.cast s k (by simp only [Involutions.act]; rw [s.cc])
  · exact hv.C.cast s k (by simp only [Involutions.act]; rw [s.ct, s.tt])
  · exact hv.self.cast s k (by simp only [Involutions.act]; rw [← s.ct, s.cc, s.tt])
  · exact hv.IH.cast s k (by simp only [Involutions.act]; rw [← s.ci, ← s.ti])
  · exact hv.IC
  · exact hv.IT
  · exact hv.IH
  · exact hv.self.cast s k (s.ii _).symm
  · exact hv.I.cast s k (s.cc _).symm
  · exact hv.IH.cast s k (by simp only [Involutions.act]; rw [← s.ct])
  · exact hv.IT.cast s k (by simp only [Involutions.act]; rw [← s.ct, s.cc])
  · exact hv.C.cast s k (by simp only [Involutions.act]; rw [← s.ci, s.ii])
  · exact hv.IH
  · exact hv.I.cast s k (s.tt _).symm
  · exact hv.IC.cast s k (by simp only [Involutions.act]; rw [s.tt])
  · exact hv.T.cast s k (by simp only [Involutions.act]; rw [← s.ti, s.ii])
  · exact hv.IT.cast s k (by simp only [Involutions.act]; rw [s.cc])
  · exact hv.IC.cast s k (by simp only [Involutions.act]; rw [s.ct, s.tt])
  · exact hv.I.cast s k (by simp only [Involutions.act]; rw [← s.ct, s.cc, s.tt])
  · exact hv.H.cast s k (by simp only [Involutions.act]; rw [s.ti, s.ci, s.ii])

end values

/-- The variables are the only objects reached, and their attributes have been set. -/
def Vars.mem (v : Vars M) (x : Ob M) : Prop :=
  x = v.self ∨ x = v.C ∨ x = v.T ∨ x = v.H ∨ x = v.I ∨ x = v.IC ∨ x = v.IT ∨ x = v.IH

def Heap.Closed (v : Vars M) (h : Heap M) : Prop := ∀ r a, h r = some a → ∀ t, v.mem (a.get t)

theorem Heap.Closed.write {v : Vars M} {h : Heap M} (hh : h.Closed v) (x : Ob M) (a : Attrs M)
    (ha : ∀ t, v.mem (a.get t)) : (h.write x a).Closed v := by
  intro r b hb
  unfold Heap.write at hb
  split at hb
  · cases hb
    exact ha
  · exact hh r b hb

theorem writes_closed (v : Vars M) : v.writes.Closed v := by
  have h0 : Heap.Closed v (fun _ => none) := by rintro r a ⟨⟩
  unfold Vars.writes
  dsimp only
  refine ((((((((h0.write _ _ ?_).write _ _ ?_).write _ _ ?_).write _ _ ?_).write _ _ ?_).write _ _ ?_).write _ _
    ?_).write _ _ ?_)
  all_goals
    intro t
    cases t <;> simp [Attrs.get, Vars.mem]

theorem writes_set (v : Vars M) (x : Ob M) (hx : v.mem x) : ∃ a, v.writes x.id = some a := by
  unfold Vars.writes Heap.write
  dsimp only
  rcases hx with h | h | h | h | h | h | h | h <;> subst h <;> simp only [if_true] <;>
    (repeat' split) <;> exact ⟨_, rfl⟩

/-- Reading any chain of attributes never falls on an attribute that has not been set. -/
theorem path_total (v : Vars M) (p : List Attr) : ∀ x, v.mem x → ∃ y, v.writes.path p x = some y ∧ v.mem y := by
  induction p with
  | nil => exact fun x hx => ⟨x, rfl, hx⟩
  | cons a as ih =>
    intro x hx
    obtain ⟨attrs, ha⟩ := writes_set v x hx
    obtain ⟨y, hy, hm⟩ := ih (attrs.get a) (writes_closed v _ _ ha a)
    exact ⟨y, by simp only [Heap.path, ha]; exact hy, hm⟩

theorem path_good {s : Involutions M} {k : Config M} (h : Heap M) (hh : GoodHeap s k h) (p : List Attr) :
    ∀ (x : Ob M) (t : M), Good s k x t → ∀ y, h.path p x = some y →
      Good s k y (p.foldl (fun m a => s.act a m) t) := by
  induction p with
  | nil =>
    intro x t hx y hy
    cases hy
    exact hx
  | cons a as ih =>
    intro x t hx y hy
    simp only [Heap.path] at hy
    split at hy
    · rename_i attrs ha
      have := hh _ _ ha a
      rw [hx.1] at this
      exact ih _ _ this _ hy
    · cases hy

/-- C52: when the flags, the rules and the methods given by the user are right, every chain of attributes `A.x.y.z…`
gives an operator which, if it can be evaluated, computes exactly the corresponding chain of conjugates, transposes,
adjoints and inverses of what A computes. -/
theorem C52_chain_value (s : Involutions M) (k : Config M) (h : k.Sound s) (p : List Attr) :
    ∃ y, (k.generate s.c).path p k.me = some y ∧
      ∀ v, y.val = some v → v = p.foldl (fun m a => s.act a m) k.value := by
  obtain ⟨y, hy, _⟩ := path_total (k.vars s.c) p k.me (Or.inl rfl)
  refine ⟨y, hy, ?_⟩
  exact (path_good _ (good_writes _ (good_vars h)) p _ _ (good_me s k) y hy).2

section instances

open Matrix

/-- The invertible complex matrices, with their conjugate, transpose and inverse. -/
def matrixInvolutions (n : Type) [Fintype n] [DecidableEq n] : Involutions (Matrix n n ℂ)ˣ where
  c u := ⟨u.1.map star, u.2.map star,
    by
      rw [show ((u.1.map star) * (u.2.map star) : Matrix n n ℂ) = (u.1 * u.2).map star from
        (Matrix.map_mul (f := starRingEnd ℂ)).symm]
      rw [u.3]
      exact Matrix.map_one _ (map_zero (starRingEnd ℂ)) (map_one (starRingEnd ℂ)),
    by
      rw [show ((u.2.map star) * (u.1.map star) : Matrix n n ℂ) = (u.2 * u.1).map star from
        (Matrix.map_mul (f := starRingEnd ℂ)).symm]
      rw [u.4]
      exact Matrix.map_one _ (map_zero (starRingEnd ℂ)) (map_one (starRingEnd ℂ))⟩
  t u := ⟨u.1ᵀ, u.2ᵀ, by rw [← Matrix.transpose_mul, u.4, Matrix.transpose_one],
    by rw [← Matrix.transpose_mul, u.3, Matrix.transpose_one]⟩
  i u := u⁻¹
  cc u := by ext i j; simp
  tt u := by ext i j; simp
  ii u := inv_inv u
  ct u := by ext i j; simp
  ci u := by ext i j; rfl
  ti u := by ext i j; rfl

/-- Non-trivial instance of the hypotheses: the matrix [[0, 1], [-1, 0]], declared orthogonal and given by its direct
method and its transpose, of which all the associated operators are generated. -/
def quarter : (Matrix (Fin 2) (Fin 2) ℂ)ˣ :=
  ⟨!![0, 1; -1, 0], !![0, -1; 1, 0], by ext i j; fin_cases i <;> fin_cases j <;> simp [Matrix.mul_apply],
    by ext i j; fin_cases i <;> fin_cases j <;> simp [Matrix.mul_apply]⟩

def quarterConfig : Config (Matrix (Fin 2) (Fin 2) ℂ)ˣ :=
  { value := quarter, flags := initFlags false { orthogonal := true },
    transpose := some ((matrixInvolutions (Fin 2)).t quarter) }

theorem quarterConfig_sound : quarterConfig.Sound (matrixInvolutions (Fin 2)) := by
  have hc : (matrixInvolutions (Fin 2)).c quarter = quarter := by
    ext i j; fin_cases i <;> fin_cases j <;> simp [matrixInvolutions, quarter]
  have ht : (matrixInvolutions (Fin 2)).i quarter = (matrixInvolutions (Fin 2)).t quarter := by
    ext i j; fin_cases i <;> fin_cases j <;> simp [matrixInvolutions, quarter]
  constructor
  · refine ⟨fun _ => hc, ?_, ?_, ?_, fun _ => ht, fun _ => ?_⟩
    · intro h; exact absurd h (by decide)
    · intro h; exact absurd h (by decide)
    · intro h; exact absurd h (by decide)
    · change _ = (matrixInvolutions (Fin 2)).c ((matrixInvolutions (Fin 2)).t quarter)
      rw [(matrixInvolutions (Fin 2)).ct, hc]; exact ht
  all_goals first | trivial | (intro v hv; cases hv; done) | skip
  intro v hv
  cases hv
  rfl

/-- Every chain of attributes of this operator that can be evaluated is right. -/
example (p : List Attr) : ∃ y, (quarterConfig.generate (matrixInvolutions (Fin 2)).c).path p quarterConfig.me = some y ∧
    ∀ v, y.val = some v → v = p.foldl (fun m a => (matrixInvolutions (Fin 2)).act a m) quarter :=
  C52_chain_value (matrixInvolutions (Fin 2)) quarterConfig quarterConfig_sound p

end instances

/-! ### The same objects -/

/-- All the rules return new operators: no rule returns its operator. -/
structure Config.NoSame (k : Config M) : Prop where
  C : k.ruleC ≠ some .same
  T : k.ruleT ≠ some .same
  H : k.ruleH ≠ some .same
  I : k.ruleI ≠ some .same
  IC : k.ruleIC ≠ some .same
  IT : k.ruleIT ≠ some .same
  IH : k.ruleIH ≠ some .same

/-- The role of the attribute of a role. -/
def Role.attr : Role → Attr → Role
  | .self, .C => .C | .self, .T => .T | .self, .H => .H | .self, .I => .I
  | .C, .C => .self | .C, .T => .H | .C, .H => .T | .C, .I => .IC
  | .T, .C => .H | .T, .T => .self | .T, .H => .C | .T, .I => .IT
  | .H, .C => .T | .H, .T => .C | .H, .H => .self | .H, .I => .IH
  | .I, .C => .IC | .I, .T => .IT | .I, .H => .IH | .I, .I => .self
  | .IC, .C => .I | .IC, .T => .IH | .IC, .H => .IT | .IC, .I => .C
  | .IT, .C => .IH | .IT, .T => .I | .IT, .H => .IC | .IT, .I => .T
  | .IH, .C => .IT | .IH, .T => .IC | .IH, .H => .I | .IH, .I => .H

/-- The flags for which the objects are consistent.  For real flags, these are the flags after the closure of
`_init_flags`; complex operators must in addition be neither hermitian nor both orthogonal and unitary. -/
def regular (f : Flags) : Bool :=
  if f.real then f.symmetric == f.hermitian && f.orthogonal == f.unitary && (!f.involutary || f.symmetric == f.orthogonal)
  else !f.hermitian && !(f.orthogonal && f.unitary) && (!f.involutary || (f.symmetric == f.orthogonal && !f.unitary))

/-- The identities of the objects, from the flags alone, when the rules return new operators. -/
def ids (f : Flags) : Role → Role
  | .self => .self
  | .C => if f.real then .self else .C
  | .T => if f.symmetric then .self else .T
  | .H => if f.symmetric then (if f.real then .self else .C) else if f.real then .T else .H
  | .I =>
    if f.involutary then .self
    else if f.orthogonal then (if f.symmetric then .self else .T)
    else if f.unitary then (if f.symmetric then .C else .H)
    else .I
  | .IC =>
    if f.real then
      (if f.involutary then .self else if f.orthogonal then (if f.symmetric then .self else .T) else .I)
    else if f.orthogonal then (if f.symmetric then .C else .H)
    else if f.unitary then (if f.symmetric then .self else .T)
    else if f.involutary then .C
    else .IC
  | .IT =>
    if f.orthogonal then .self
    else if f.symmetric then (if f.involutary then .self else if f.unitary then .C else .I)
    else if f.unitary then .C
    else if f.involutary then .T
    else .IT
  | .IH =>
    if f.unitary then .self
    else if f.orthogonal then .C
    else if f.involutary then (if f.symmetric then .C else if f.real then .T else .H)
    else if f.symmetric then (if f.real then .I else .IC)
    else if f.real then .IT else .IH

def Vars.get (v : Vars M) : Role → Ob M
  | .self => v.self | .C => v.C | .T => v.T | .H => v.H
  | .I => v.I | .IC => v.IC | .IT => v.IT | .IH => v.IH

section ids

variable {k : Config M} (conj : M → M)

theorem apply_id (role : Role) (r : RuleResult M) (h : some r ≠ some .same) : (k.apply role r).id = role := by
  cases r with
  | same => exact absurd rfl h
  | fresh v => rfl

theorem id_C (hn : k.NoSame) : (k.mkC conj).id = ids k.flags .C := by
  unfold Config.mkC ids
  split
  · rfl
  · split
    · rename_i r hr
      exact apply_id _ r (hr ▸ hn.C)
    · rfl

theorem id_T0 (hn : k.NoSame) (x : Ob M) (hx : k.mkT0 = some x) : x.id = ids k.flags .T := by
  unfold Config.mkT0 at hx
  unfold ids
  split at hx
  · rename_i hs
    cases hx
    rw [if_pos hs]
    rfl
  · rename_i hs
    rw [if_neg hs]
    split at hx
    · rename_i r hr
      cases hx
      exact apply_id _ _ (hr ▸ hn.T)
    · rename_i r _ hr
      cases hx
      split at hr
      · exact apply_id _ _ (hr ▸ hn.H)
      · cases hr
    · rename_i r _ _ hr
      cases hx
      split at hr
      · exact apply_id _ _ (hr ▸ hn.I)
      · cases hr
    · split at hx
      · cases hx
        rfl
      · cases hx

theorem id_H0 (hn : k.NoSame) (hreg : regular k.flags = true) (c : Ob M) (hc : c.id = ids k.flags .C)
    (t : Option (Ob M)) (ht : ∀ x, t = some x → x.id = ids k.flags .T) (x : Ob M) (hx : k.mkH0 c t = some x) :
    x.id = ids k.flags .H := by
  unfold Config.mkH0 at hx
  split at hx
  · rename_i hh
    cases hx
    unfold regular at hreg
    split at hreg
    · rename_i hr
      simp only [Bool.and_eq_true, beq_iff_eq] at hreg
      have hs : k.flags.symmetric = true := by rw [hreg.1.1]; exact hh
      simp [ids, hs, hr, Config.me]
    · rw [hh] at hreg
      simp at hreg
  rename_i hh
  split at hx
  · rename_i hs
    cases hx
    rw [hc]
    simp [ids, hs]
  rename_i hs
  split at hx
  · rename_i hr
    rw [ht x hx]
    simp [ids, hs, hr]
  · rename_i hr
    have e : ids k.flags .H = .H := by simp [ids, hs, hr]
    rw [e]
    split at hx
    · rename_i r hr'
      cases hx
      exact apply_id _ _ (hr' ▸ hn.H)
    · rename_i r _ hr'
      cases hx
      split at hr'
      · exact apply_id _ _ (hr' ▸ hn.I)
      · cases hr'
    · split at hx
      · cases hx
        rfl
      · cases hx

/-- The transpose and the adjoint after 840-868. -/
theorem id_TH (hn : k.NoSame) (hreg : regular k.flags = true) :
    (k.vars conj).T.id = ids k.flags .T ∧ (k.vars conj).H.id = ids k.flags .H := by
  have ht := id_T0 hn
  have hc := id_C conj hn
  have hh := id_H0 hn hreg _ hc _ ht
  have key : ∀ t0 h0, t0 = k.mkT0 → h0 = k.mkH0 (k.mkC conj) k.mkT0 →
      (complete conj k.flags.real .T .H t0 h0).1.id = ids k.flags .T ∧
      (complete conj k.flags.real .T .H t0 h0).2.id = ids k.flags .H := by
    intro t0 h0 e1 e2
    have hsym : t0 = none → k.flags.symmetric = false := by
      intro h
      cases hs : k.flags.symmetric with
      | false => rfl
      | true =>
        rw [h] at e1
        unfold Config.mkT0 at e1
        rw [if_pos hs] at e1
        cases e1
    have hH : h0 = none → k.flags.symmetric = false ∧ (k.flags.real = true → t0 = none) := by
      intro h
      rw [h] at e2
      unfold Config.mkH0 at e2
      split at e2
      · cases e2
      split at e2
      · cases e2
      rename_i hs
      refine ⟨by simpa using hs, ?_⟩
      split at e2
      · exact fun _ => by rw [e1, ← e2]
      · rename_i hr
        exact fun h => absurd h hr
    unfold complete
    split
    · rename_i x y
      exact ⟨ht _ e1.symm, hh _ e2.symm⟩
    · rename_i x
      refine ⟨ht _ e1.symm, ?_⟩
      obtain ⟨a, b⟩ := hH rfl
      have hr : k.flags.real = false := by
        cases hr : k.flags.real with
        | false => rfl
        | true => exact absurd (b hr) (by simp)
      simp [ids, a, hr]
    · rename_i x
      have a := hsym rfl
      split
      · rename_i hr
        -- real, not symmetric: the adjoint is the transpose
        exfalso
        unfold regular at hreg
        rw [if_pos hr] at hreg
        simp only [Bool.and_eq_true, beq_iff_eq] at hreg
        have hherm : k.flags.hermitian = false := by rw [← hreg.1.1]; exact a
        unfold Config.mkH0 at e2
        rw [hherm, a, hr] at e2
        simp only [Bool.false_eq_true, if_false, if_true] at e2
        rw [← e1] at e2
        cases e2
      · refine ⟨by simp [ids, a], hh _ e2.symm⟩
    · have a := hsym rfl
      dsimp only
      split
      · rename_i hr
        simp [ids, a, hr]
      · rename_i hr
        simp [ids, a, hr]
  exact key _ _ rfl rfl

theorem id_I (hn : k.NoSame) (hreg : regular k.flags = true) : (k.vars conj).I.id = ids k.flags .I := by
  obtain ⟨ht, hh⟩ := id_TH conj hn hreg
  change (k.mkI (k.vars conj).T (k.vars conj).H).id = _
  unfold Config.mkI
  split
  · rename_i hi
    simp [ids, hi, Config.me]
  rename_i hi
  split
  · rename_i ho
    rw [ht]
    simp [ids, hi, ho]
  rename_i ho
  split
  · rename_i hu
    rw [hh]
    unfold regular at hreg
    split at hreg
    · simp only [Bool.and_eq_true, beq_iff_eq] at hreg
      exact absurd (hreg.1.2.trans hu) ho
    · rename_i hr
      simp [ids, hi, ho, hu, hr]
  rename_i hu
  split
  · rename_i r hr
    rw [apply_id _ r (hr ▸ hn.I)]
    simp [ids, hi, ho, hu]
  · simp [ids, hi, ho, hu]

theorem id_IC (hn : k.NoSame) (hreg : regular k.flags = true) : (k.vars conj).IC.id = ids k.flags .IC := by
  obtain ⟨ht, hh⟩ := id_TH conj hn hreg
  have hi := id_I conj hn hreg
  have hc := id_C conj hn
  change (k.mkIC conj (k.mkC conj) (k.vars conj).T (k.vars conj).H (k.vars conj).I).id = _
  unfold Config.mkIC
  split
  · rename_i hr
    rw [hi]
    unfold regular at hreg
    rw [if_pos hr] at hreg
    simp only [Bool.and_eq_true, beq_iff_eq] at hreg
    simp only [ids, hr, if_true]
    split
    · rfl
    split
    · rfl
    · rename_i ho
      rw [if_neg (by rw [← hreg.1.2]; exact ho)]
  rename_i hr
  split
  · rename_i ho
    rw [hh]
    simp [ids, hr, ho]
  rename_i ho
  split
  · rename_i hu
    rw [ht]
    simp [ids, hr, ho, hu]
  rename_i hu
  split
  · rename_i hv
    rw [hc]
    simp [ids, hr, ho, hu, hv]
  rename_i hv
  have e : ids k.flags .IC = .IC := by simp [ids, hr, ho, hu, hv]
  rw [e]
  split
  · rename_i r hr'
    exact apply_id _ r (hr' ▸ hn.IC)
  split <;> rfl

theorem id_ITH (hn : k.NoSame) (hreg : regular k.flags = true) :
    (k.vars conj).IT.id = ids k.flags .IT ∧ (k.vars conj).IH.id = ids k.flags .IH := by
  obtain ⟨ht, hh⟩ := id_TH conj hn hreg
  have hi := id_I conj hn hreg
  have hc := id_C conj hn
  have hic := id_IC conj hn hreg
  change (complete conj k.flags.real .IT .IH (k.mkIT0 (k.mkC conj) (k.vars conj).T (k.vars conj).I)
      (k.mkIH0 (k.mkC conj) (k.vars conj).H (k.vars conj).I (k.vars conj).IC
        (k.mkIT0 (k.mkC conj) (k.vars conj).T (k.vars conj).I))).1.id = _ ∧
    (complete conj k.flags.real .IT .IH (k.mkIT0 (k.mkC conj) (k.vars conj).T (k.vars conj).I)
      (k.mkIH0 (k.mkC conj) (k.vars conj).H (k.vars conj).I (k.vars conj).IC
        (k.mkIT0 (k.mkC conj) (k.vars conj).T (k.vars conj).I))).2.id = _
  revert ht hh hi hc hic
  generalize (k.vars conj).T = t, (k.vars conj).H = u, (k.vars conj).I = i, k.mkC conj = c, (k.vars conj).IC = ic
  intro ht hh hi hc hic
  have nIT := hn.IT
  have nIH := hn.IH
  unfold Config.mkIT0 Config.mkIH0
  revert hreg ht hh hi hc hic
  unfold regular
  obtain ⟨value, flags, ruleC, ruleT, ruleH, ruleI, ruleIC, ruleIT, ruleIH, m1, m2, m3, m4, m5, m6⟩ := k
  obtain ⟨lin, real, sym, herm, idem, inv, orth, unit⟩ := flags
  dsimp only at nIT nIH ⊢
  have cIT : ruleIT = none ∨ ∃ v, ruleIT = some (.fresh v) := by
    rcases ruleIT with _ | (_ | v)
    · exact Or.inl rfl
    · exact absurd rfl nIT
    · exact Or.inr ⟨v, rfl⟩
  have cIH : ruleIH = none ∨ ∃ v, ruleIH = some (.fresh v) := by
    rcases ruleIH with _ | (_ | v)
    · exact Or.inl rfl
    · exact absurd rfl nIH
    · exact Or.inr ⟨v, rfl⟩
  cases real <;> cases sym <;> cases herm <;> cases inv <;> cases orth <;> cases unit <;>
    intro hreg ht hh hi hc hic <;>
    first
    | (exfalso; simp at hreg; done)
    | (simp only [ids, Bool.false_eq_true, if_false, if_true] at ht hh hi hc hic
       rcases cIT with rfl | ⟨v, rfl⟩ <;> rcases cIH with rfl | ⟨w, rfl⟩ <;> cases m5 <;> cases m6 <;>
         simp [complete, Config.me, Config.apply, ids, ht, hh, hi, hc, hic])

theorem id_vars (hn : k.NoSame) (hreg : regular k.flags = true) (r : Role) :
    ((k.vars conj).get r).id = ids k.flags r := by
  cases r with
  | self => rfl
  | C => exact id_C conj hn
  | T => exact (id_TH conj hn hreg).1
  | H => exact (id_TH conj hn hreg).2
  | I => exact id_I conj hn hreg
  | IC => exact id_IC conj hn hreg
  | IT => exact (id_ITH conj hn hreg).1
  | IH => exact (id_ITH conj hn hreg).2

end ids

/-- The objects of the variables with given identities. -/
def unitVars (ρ : Role → Role) : Vars Unit :=
  ⟨⟨ρ .self, none⟩, ⟨ρ .C, none⟩, ⟨ρ .T, none⟩, ⟨ρ .H, none⟩, ⟨ρ .I, none⟩, ⟨ρ .IC, none⟩, ⟨ρ .IT, none⟩,
    ⟨ρ .IH, none⟩⟩

def Attrs.ids (a : Attrs M) : Role × Role × Role × Role := (a.C.id, a.T.id, a.H.id, a.I.id)

theorem write_ids (h : Heap M) (x : Ob M) (a : Attrs M) (r : Role) :
    (h.write x a r).map Attrs.ids = if r = x.id then some a.ids else (h r).map Attrs.ids := by
  unfold Heap.write
  split <;> rfl

theorem writes_ids (v : Vars M) (r : Role) :
    (v.writes r).map Attrs.ids = ((unitVars (fun r => (v.get r).id)).writes r).map Attrs.ids := by
  unfold Vars.writes unitVars
  dsimp only [Vars.get]
  simp only [write_ids]
  rfl

/-- The finite table: whatever the regular flags, the attribute of the object of a role is the object of the
attribute of this role. -/
theorem table : ∀ real sym herm inv orth unit : Bool, ∀ r : Role,
    regular ⟨false, real, sym, herm, false, inv, orth, unit⟩ = true →
    ((unitVars (ids ⟨false, real, sym, herm, false, inv, orth, unit⟩)).writes
      (ids ⟨false, real, sym, herm, false, inv, orth, unit⟩ r)).map Attrs.ids =
    some (ids ⟨false, real, sym, herm, false, inv, orth, unit⟩ (r.attr .C),
      ids ⟨false, real, sym, herm, false, inv, orth, unit⟩ (r.attr .T),
      ids ⟨false, real, sym, herm, false, inv, orth, unit⟩ (r.attr .H),
      ids ⟨false, real, sym, herm, false, inv, orth, unit⟩ (r.attr .I)) := by
  intro real sym herm inv orth unit r
  cases r <;> revert real sym herm inv orth unit <;> decide +kernel

theorem ids_eq (f : Flags) :
    ids f = ids ⟨false, f.real, f.symmetric, f.hermitian, false, f.involutary, f.orthogonal, f.unitary⟩ := by
  funext r
  cases r <;> rfl

theorem table' (f : Flags) (h : regular f = true) (r : Role) :
    ((unitVars (ids f)).writes (ids f r)).map Attrs.ids =
      some (ids f (r.attr .C), ids f (r.attr .T), ids f (r.attr .H), ids f (r.attr .I)) := by
  rw [ids_eq f]
  exact table _ _ _ _ _ _ r h

theorem path_id (k : Config M) (conj : M → M) (hn : k.NoSame) (hreg : regular k.flags = true) (p : List Attr) :
    ∀ (x : Ob M) (r : Role), x.id = ids k.flags r →
      ((k.generate conj).path p x).map Ob.id = some (ids k.flags (p.foldl Role.attr r)) := by
  induction p with
  | nil =>
    intro x r hx
    simp [Heap.path, hx]
  | cons a as ih =>
    intro x r hx
    have h1 := table' k.flags hreg r
    have e : (fun r => ((k.vars conj).get r).id) = ids k.flags := funext (id_vars conj hn hreg)
    rw [← e, ← writes_ids, e, ← hx] at h1
    change ((k.generate conj) x.id).map Attrs.ids = _ at h1
    cases hg : (k.generate conj) x.id with
    | none => rw [hg] at h1; simp at h1
    | some attrs =>
      rw [hg] at h1
      simp only [Option.map_some, Option.some.injEq, Attrs.ids, Prod.mk.injEq] at h1
      simp only [Heap.path, hg, List.foldl_cons]
      apply ih
      cases a
      · exact h1.1
      · exact h1.2.1
      · exact h1.2.2.1
      · exact h1.2.2.2

/-- A chain of attributes as an element of the group generated by the conjugate, the transpose and the inverse: the
parities of their numbers (the adjoint counts as a conjugate and a transpose). -/
def parities (p : List Attr) : Bool × Bool × Bool :=
  (((p.filter (fun a => a == .C || a == .H)).length % 2 == 1),
   ((p.filter (fun a => a == .T || a == .H)).length % 2 == 1),
   ((p.filter (fun a => a == .I)).length % 2 == 1))

def Role.parities : Role → Bool × Bool × Bool
  | .self => (false, false, false)
  | .C => (true, false, false)
  | .T => (false, true, false)
  | .H => (true, true, false)
  | .I => (false, false, true)
  | .IC => (true, false, true)
  | .IT => (false, true, true)
  | .IH => (true, true, true)

theorem Role.parities_inj (r q : Role) (h : r.parities = q.parities) : r = q := by
  cases r <;> cases q <;> first | rfl | (simp [Role.parities] at h)

theorem parities_append (p : List Attr) : (p.foldl Role.attr .self).parities = Flags.parities p := by
  have key : ∀ (p : List Attr) (r : Role), (p.foldl Role.attr r).parities =
      (xor r.parities.1 (Flags.parities p).1, xor r.parities.2.1 (Flags.parities p).2.1,
        xor r.parities.2.2 (Flags.parities p).2.2) := by
    intro p
    induction p with
    | nil =>
      intro r
      simp [Flags.parities]
    | cons a as ih =>
      intro r
      rw [List.foldl_cons, ih]
      have hp : ∀ n : Nat, ((n + 1) % 2 == 1) = !(n % 2 == 1) := by
        intro n
        rcases Nat.mod_two_eq_zero_or_one n with h | h <;> simp [Nat.add_mod, h]
      cases a <;> cases r <;> simp [Role.attr, Role.parities, Flags.parities, hp]
  rw [key p .self]
  simp [Role.parities]

/-- C11, partial: for an operator whose rules return new operators and whose flags are regular, two chains of
attributes that are equal in the group generated by the (commuting and involutive) conjugate, transpose and inverse
give the very same object; in particular all the equalities of the property hold for the operator and for all its
associated operators.
Missing from the full property: the flags that are not regular and the rule '.' (`C11_hermitian_fails`,
`C11_unitary_fails`, `C11_rule_fails`). -/
theorem C11_same_objects_partial (k : Config M) (conj : M → M) (hn : k.NoSame) (hreg : regular k.flags = true)
    (p q : List Attr) (h : parities p = parities q) :
    ∃ x y, (k.generate conj).path p k.me = some x ∧ (k.generate conj).path q k.me = some y ∧ x.id = y.id := by
  have e : p.foldl Role.attr .self = q.foldl Role.attr .self := by
    apply Role.parities_inj
    rw [parities_append, parities_append, h]
  have hp := path_id k conj hn hreg p k.me .self rfl
  have hq := path_id k conj hn hreg q k.me .self rfl
  rw [← e] at hq
  cases hx : (k.generate conj).path p k.me with
  | none => rw [hx] at hp; simp at hp
  | some x =>
    cases hy : (k.generate conj).path q k.me with
    | none => rw [hy] at hq; simp at hq
    | some y =>
      rw [hx] at hp
      rw [hy] at hq
      simp only [Option.map_some, Option.some.injEq] at hp hq
      exact ⟨x, y, rfl, rfl, hp.trans hq.symm⟩

/-- Non-trivial instance of the hypotheses. -/
example : quarterConfig.NoSame ∧ regular quarterConfig.flags = true ∧
    parities [.I, .T, .H, .I] = parities [.C] := ⟨by constructor <;> simp [quarterConfig], by decide, by decide⟩

/-- C11: the closure of the flags of a real operator gives regular flags, unless it is declared idempotent and involutary. -/
theorem C11_real_flags_regular (f : Flags) (h : ¬ (f.idempotent = true ∧ f.involutary = true)) :
    regular (initFlags false f) = true := by
  obtain ⟨a, b, c, d, e, g, i, j⟩ := f
  revert h
  revert a b c d e g i j
  decide +kernel

/-- C11 is violated by the code: a complex operator declared hermitian, without rule nor method.  Its transpose and its
conjugate are two distinct objects, and `A.T.C.C` is not `A.T`. -/
theorem C11_hermitian_fails :
    ∃ k : Config Int, k.flags = initFlags true { hermitian := true } ∧ k.NoSame ∧ ∃ x y,
      (k.generate id).path [.T] k.me = some x ∧ (k.generate id).path [.T, .C, .C] k.me = some y ∧ x.id ≠ y.id :=
  ⟨{ value := 1, flags := initFlags true { hermitian := true } }, rfl, by constructor <;> simp,
    _, _, rfl, rfl, by decide⟩

/-- C11 is violated by the code: a complex operator declared orthogonal and unitary (which is then real, without
being declared so): the inverse of its inverse is not itself. -/
theorem C11_unitary_fails :
    ∃ k : Config Int, k.flags = initFlags true { orthogonal := true, unitary := true } ∧ k.NoSame ∧ ∃ x y,
      (k.generate id).path [] k.me = some x ∧ (k.generate id).path [.I, .I] k.me = some y ∧ x.id ≠ y.id :=
  ⟨{ value := 1, flags := initFlags true { orthogonal := true, unitary := true } }, rfl, by constructor <;> simp,
    _, _, rfl, rfl, by decide⟩

/-- C11 is violated by the code: an operator with the rule ('T', '.') instead of the flag symmetric. -/
theorem C11_rule_fails :
    ∃ k : Config Int, k.flags = initFlags false {} ∧ k.ruleT = some .same ∧ ∃ x y,
      (k.generate id).path [.I, .T] k.me = some x ∧ (k.generate id).path [.T, .I] k.me = some y ∧ x.id ≠ y.id :=
  ⟨{ value := 1, flags := initFlags false {}, ruleT := some .same }, rfl, rfl, _, _, rfl, rfl, by decide⟩

end Verif.Flags
