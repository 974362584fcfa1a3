import Verif.Simplify.Homothety
import Mathlib.Algebra.BigOperators.Group.List.Basic
import Mathlib.Algebra.Group.Commute.Basic
import Mathlib.Algebra.Group.End
import Mathlib.Algebra.Order.Ring.Int
import Mathlib.Tactic.Ring

/-
Property C16: moving the scalars of a composition does not change what it computes.
-/

namespace Verif.Simplify

variable {Op K M : Type}

section
variable [CommMonoid K] [DecidableEq K] [Monoid M]

/-- The effect of a composition: the first operand is applied last. -/
def effectOf (val : Op → M) (ops : List Op) : M := (ops.map val).prod

/-- The operands and their rules do what they are documented to do: `h c` is the multiplication by the scalar `c`, the
linear operands commute with the scalars, the rules absorb the scalar on their right or on their left. -/
structure HSound (h : K →* M) (val : Op → M) (t : HTable Op K) : Prop where
  linear : ∀ o, t.linear o = true → ∀ c, h c * val o = val o * h c
  homothety : ∀ o c, t.homothety o = some c → val o = h c
  toIdentity : ∀ o, val (t.toIdentity o) = 1
  identityLinear : ∀ o, t.linear (t.toIdentity o) = true
  mkHomothety : ∀ c, val (t.mkHomothety c) = h c
  left : ∀ o, ∀ r ∈ t.left o, ∀ c new, r o c = some new → val new = val o * h c
  right : ∀ o, ∀ r ∈ t.right o, ∀ c new, r o c = some new → val new = h c * val o

theorem collect_spec (h : K →* M) (val : Op → M) (t : HTable Op K) (hs : HSound h val t) (ops : List Op)
    (hl : ∀ o ∈ ops, t.linear o = true) (c : K) :
    h (t.collect c ops).1 * effectOf val (t.collect c ops).2 = h c * effectOf val ops ∧
      ∀ o ∈ (t.collect c ops).2, t.linear o = true := by
  induction ops generalizing c with
  | nil => simp [HTable.collect]
  | cons o ops ih =>
    have hl' : ∀ o ∈ ops, t.linear o = true := fun o ho => hl o (by simp [ho])
    have ho := hl o (by simp)
    have keep : ∀ c, h (t.collect c ops).1 * effectOf val (o :: (t.collect c ops).2) =
        h c * effectOf val (o :: ops) := by
      intro c
      obtain ⟨e, _⟩ := ih hl' c
      simp only [effectOf, List.map_cons, List.prod_cons] at e ⊢
      rw [← mul_assoc, hs.linear o ho, mul_assoc, e, ← mul_assoc, ← hs.linear o ho, mul_assoc]
    have kl : ∀ c, ∀ o' ∈ o :: (t.collect c ops).2, t.linear o' = true := by
      intro c o' ho'
      rcases List.mem_cons.1 ho' with rfl | ho'
      · exact ho
      · exact (ih hl' c).2 o' ho'
    unfold HTable.collect
    split
    · exact ⟨keep c, kl c⟩
    · split
      · exact ⟨keep c, kl c⟩
      · rename_i d hd
        obtain ⟨e, l⟩ := ih hl' (c * d)
        refine ⟨?_, ?_⟩
        · simp only [effectOf, List.map_cons, List.prod_cons, hs.toIdentity, one_mul, hs.homothety o d hd] at e ⊢
          rw [e, map_mul, mul_assoc]
        · intro o' ho'
          rcases List.mem_cons.1 ho' with rfl | ho'
          · exact hs.identityLinear o
          · exact l o' ho'

theorem absorb_spec (h : K →* M) (val : Op → M) (t : HTable Op K) (hs : HSound h val t) (o new : Op) (c : K)
    (hl : t.linear o = true) (ha : t.absorb o c = some new) : val new = h c * val o := by
  unfold HTable.absorb at ha
  split at ha
  · rename_i new' hf
    cases ha
    obtain ⟨r, hr, e⟩ := List.exists_of_findSome?_eq_some hf
    rw [hs.left o r hr c new e, hs.linear o hl]
  · obtain ⟨r, hr, e⟩ := List.exists_of_findSome?_eq_some ha
    exact hs.right o r hr c new e

theorem absorbFirst_spec (h : K →* M) (val : Op → M) (t : HTable Op K) (hs : HSound h val t) (c : K)
    (ops res : List Op) (hl : ∀ o ∈ ops, t.linear o = true) (ha : t.absorbFirst c ops = some res) :
    effectOf val res = h c * effectOf val ops := by
  induction ops generalizing res with
  | nil => simp [HTable.absorbFirst] at ha
  | cons o ops ih =>
    have hl' : ∀ o ∈ ops, t.linear o = true := fun o ho => hl o (by simp [ho])
    have ho := hl o (by simp)
    have pass : ∀ res, (t.absorbFirst c ops).map (o :: ·) = some res →
        effectOf val res = h c * effectOf val (o :: ops) := by
      intro res hr
      cases hf : t.absorbFirst c ops with
      | none => rw [hf] at hr; cases hr
      | some r =>
        rw [hf] at hr
        cases hr
        have := ih r hl' hf
        simp only [effectOf, List.map_cons, List.prod_cons] at this ⊢
        rw [this, ← mul_assoc, ← hs.linear o ho, mul_assoc]
    unfold HTable.absorbFirst at ha
    split at ha
    · exact pass res ha
    · split at ha
      · rename_i new hn
        cases ha
        simp only [effectOf, List.map_cons, List.prod_cons]
        rw [absorb_spec h val t hs o new c ho hn, mul_assoc]
      · exact pass res ha

theorem applyLinear_spec (h : K →* M) (val : Op → M) (t : HTable Op K) (hs : HSound h val t) (ops : List Op)
    (hl : ∀ o ∈ ops, t.linear o = true) : effectOf val (t.applyLinear ops) = effectOf val ops := by
  unfold HTable.applyLinear
  split
  · rfl
  · obtain ⟨e, l⟩ := collect_spec h val t hs ops hl 1
    rw [map_one, one_mul] at e
    dsimp only
    split
    · rename_i h1
      rw [h1, map_one, one_mul] at e
      exact e
    · split
      · rename_i res ha
        rw [absorbFirst_spec h val t hs _ _ _ l ha, e]
      · rw [← e]
        simp [effectOf, hs.mkHomothety]

theorem groupby_flatten (key : Op → Bool) (ops : List Op) : ((groupby key ops).map Prod.snd).flatten = ops := by
  induction ops with
  | nil => rfl
  | cons o ops ih =>
    unfold groupby
    split
    · rename_i hg
      rw [hg] at ih
      simpa using ih
    · rename_i k g gs hg
      rw [hg] at ih
      split <;> simpa using ih

theorem groupby_key (key : Op → Bool) (ops : List Op) : ∀ g ∈ groupby key ops, ∀ o ∈ g.2, key o = g.1 := by
  induction ops with
  | nil => intro g hg; simp [groupby] at hg
  | cons o ops ih =>
    intro g hg
    unfold groupby at hg
    split at hg
    · rename_i he
      simp only [List.mem_singleton] at hg
      subst hg
      simp
    · rename_i k g' gs he
      rw [he] at ih
      split at hg
      · rename_i hk
        rcases List.mem_cons.1 hg with rfl | hg
        · intro o' ho'
          rcases List.mem_cons.1 ho' with rfl | ho'
          · exact hk
          · exact ih (k, g') (by simp) o' ho'
        · exact ih g (by simp [hg])
      · rcases List.mem_cons.1 hg with rfl | hg
        · simp
        · exact ih g hg

/-- C16: gathering the scalars of a composition and absorbing them does not change what the composition computes, also
when it has nonlinear operands. -/
theorem C16_scalars_moved (h : K →* M) (val : Op → M) (t : HTable Op K) (hs : HSound h val t) (ops : List Op) :
    effectOf val (t.applyHomothety ops) = effectOf val ops := by
  conv_rhs => rw [← groupby_flatten t.linear ops]
  unfold HTable.applyHomothety effectOf
  rw [List.map_flatten, List.map_flatten, List.prod_flatten, List.prod_flatten]
  congr 1
  simp only [List.map_map]
  apply List.map_congr_left
  intro g hg
  simp only [Function.comp]
  split
  · rename_i hk
    exact applyLinear_spec h val t hs g.2 (fun o ho => by rw [groupby_key t.linear ops g hg o ho, hk])
  · rfl

end

section
variable [Mul K] [One K] [DecidableEq K]

/-- An operand other than an identity that multiplies by a scalar. -/
def HTable.isScalar (t : HTable Op K) (o : Op) : Bool := !t.isIdentity o && (t.homothety o).isSome

theorem collect_no_scalar (t : HTable Op K) (hid : ∀ o, t.isIdentity (t.toIdentity o) = true) (ops : List Op) (c : K) :
    ∀ o ∈ (t.collect c ops).2, t.isScalar o = false := by
  induction ops generalizing c with
  | nil => simp [HTable.collect]
  | cons o ops ih =>
    intro o' ho'
    unfold HTable.collect at ho'
    split at ho'
    · rename_i hi
      rcases List.mem_cons.1 ho' with rfl | ho'
      · simp [HTable.isScalar, hi]
      · exact ih c o' ho'
    · split at ho'
      · rename_i hh
        rcases List.mem_cons.1 ho' with rfl | ho'
        · simp [HTable.isScalar, hh]
        · exact ih c o' ho'
      · rcases List.mem_cons.1 ho' with rfl | ho'
        · simp [HTable.isScalar, hid]
        · exact ih _ o' ho'

theorem absorb_no_scalar (t : HTable Op K) (o new : Op) (c : K)
    (hl : ∀ r ∈ t.left o, ∀ c new, r o c = some new → t.isScalar new = false)
    (hr : ∀ r ∈ t.right o, ∀ c new, r o c = some new → t.isScalar new = false)
    (ha : t.absorb o c = some new) : t.isScalar new = false := by
  unfold HTable.absorb at ha
  split at ha
  · rename_i new' hf
    cases ha
    obtain ⟨r, hr, e⟩ := List.exists_of_findSome?_eq_some hf
    exact hl r hr c new e
  · obtain ⟨r, hm, e⟩ := List.exists_of_findSome?_eq_some ha
    exact hr r hm c new e

theorem absorbFirst_no_scalar (t : HTable Op K) (c : K) (ops res : List Op)
    (hn : ∀ o ∈ ops, t.isScalar o = false)
    (hl : ∀ o, ∀ r ∈ t.left o, ∀ c new, r o c = some new → t.isScalar new = false)
    (hr : ∀ o, ∀ r ∈ t.right o, ∀ c new, r o c = some new → t.isScalar new = false)
    (ha : t.absorbFirst c ops = some res) : ∀ o ∈ res, t.isScalar o = false := by
  induction ops generalizing res with
  | nil => simp [HTable.absorbFirst] at ha
  | cons o ops ih =>
    have hn' : ∀ o ∈ ops, t.isScalar o = false := fun o ho => hn o (by simp [ho])
    have pass : ∀ res, (t.absorbFirst c ops).map (o :: ·) = some res → ∀ o ∈ res, t.isScalar o = false := by
      intro res hr
      cases hf : t.absorbFirst c ops with
      | none => rw [hf] at hr; cases hr
      | some r =>
        rw [hf] at hr
        cases hr
        intro o' ho'
        rcases List.mem_cons.1 ho' with rfl | ho'
        · exact hn _ (by simp)
        · exact ih r hn' hf o' ho'
    unfold HTable.absorbFirst at ha
    split at ha
    · exact pass res ha
    · split at ha
      · rename_i new hnew
        cases ha
        intro o' ho'
        rcases List.mem_cons.1 ho' with rfl | ho'
        · exact absorb_no_scalar t o _ c (hl o) (hr o) hnew
        · exact hn' o' ho'
      · exact pass res ha

/-- C16: in a run of linear operands at most one scalar is left, and it is the operand on the left. -/
theorem C16_one_scalar_left (t : HTable Op K) (hid : ∀ o, t.isIdentity (t.toIdentity o) = true)
    (hl : ∀ o, ∀ r ∈ t.left o, ∀ c new, r o c = some new → t.isScalar new = false)
    (hr : ∀ o, ∀ r ∈ t.right o, ∀ c new, r o c = some new → t.isScalar new = false)
    (ops : List Op) (hlen : 2 ≤ ops.length) :
    ∀ o ∈ (t.applyLinear ops).tail, t.isScalar o = false := by
  have hc := collect_no_scalar t hid ops 1
  unfold HTable.applyLinear
  rw [if_neg (by omega)]
  dsimp only
  split
  · intro o ho
    exact hc o (List.mem_of_mem_tail ho)
  · split
    · rename_i res ha
      intro o ho
      exact absorbFirst_no_scalar t _ _ _ hc hl hr ha o (List.mem_of_mem_tail ho)
    · exact hc

end

/-! An instance: functions of an integer, with scalars, an operand that absorbs them and a nonlinear one. -/

inductive HOp where
  | ident
  | scalar (c : Int)
  | square
  | dense (c : Int)
  | negate

def hopVal : HOp → Function.End Int
  | .ident => 1
  | .scalar c => fun x => c * x
  | .square => fun x => x * x
  | .dense c => fun x => c * x
  | .negate => fun x => -x

def hopTable : HTable HOp Int :=
  { linear := fun o => match o with | .square => false | _ => true
    isIdentity := fun o => match o with | .ident => true | _ => false
    homothety := fun o => match o with | .ident => some 1 | .scalar c => some c | _ => none
    toIdentity := fun _ => .ident
    mkHomothety := .scalar
    left := fun o => match o with
      | .dense d => [fun _ c => some (.dense (d * c))]
      | _ => []
    right := fun _ => [] }

def scalars : Int →* Function.End Int where
  toFun c := fun x => c * x
  map_one' := by funext x; exact one_mul x
  map_mul' a b := by funext x; exact mul_assoc a b x

theorem hopTable_sound : HSound scalars hopVal hopTable where
  linear := by
    intro o ho c
    funext x
    cases o with
    | ident => rfl
    | scalar d => exact (mul_left_comm c d x)
    | square => exact absurd ho (by simp [hopTable])
    | dense d => exact (mul_left_comm c d x)
    | negate => exact (mul_neg c x)
  homothety := by
    intro o c ho
    cases o <;> simp [hopTable] at ho
    · subst ho; funext x; exact (one_mul x).symm
    · subst ho; rfl
  toIdentity := fun _ => rfl
  identityLinear := fun _ => rfl
  mkHomothety := fun _ => rfl
  left := by
    intro o r hr c new e
    cases o <;> simp [hopTable] at hr
    subst hr
    cases e
    funext x
    exact mul_assoc _ c x
  right := by
    intro o r hr
    simp [hopTable] at hr

example : hopTable.applyHomothety [.negate, .dense 4, .scalar 3, .square, .scalar 5, .negate, .scalar 2] =
    [.negate, .dense 12, .ident, .square, .scalar 10, .ident, .negate, .ident] := rfl

example : effectOf hopVal (hopTable.applyHomothety [.negate, .dense 4, .scalar 3, .square, .scalar 5, .negate]) =
    effectOf hopVal [.negate, .dense 4, .scalar 3, .square, .scalar 5, .negate] :=
  C16_scalars_moved scalars hopVal hopTable hopTable_sound _

example : ∀ o ∈ (hopTable.applyLinear [.negate, .scalar 3, .scalar 5]).tail, hopTable.isScalar o = false := by
  refine C16_one_scalar_left hopTable (fun _ => rfl) ?_ ?_ _ (by simp)
  · intro o r hr c new e
    cases o <;> simp [hopTable] at hr
    subst hr
    cases e
    rfl
  · intro o r hr
    simp [hopTable] at hr

end Verif.Simplify
