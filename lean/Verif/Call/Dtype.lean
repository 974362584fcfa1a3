import Mathlib.Data.Fintype.Option
import Mathlib.Tactic.Cases
import Mathlib.Tactic.NormNum
import Mathlib.Tactic.Ring
import Mathlib.Algebra.Order.Field.Rat
import Mathlib.Algebra.Order.Field.Power
import Mathlib.Data.List.Perm.Basic

/-
Model of the data types of the operators and of their outputs: src/pyoperators/core.py:754-762 (`_find_common_type`), 1306-1350 and 1390-1395 (`_validate_arguments`), 1717-1722 (`CompositeOperator.__init__`), 2598-2603 (`CompositionOperator._get_dtypes`); and property C101.
-/

namespace Verif.Call.Dtype

/-! ### Model -/

/-- The numeric data types of NumPy, by their number of bytes; the type `f16` is the extended precision of x86. -/
inductive Ty where
  | b1 | i1 | u1 | i2 | u2 | i4 | u4 | i8 | u8 | f2 | f4 | f8 | f16 | c8 | c16 | c32
deriving DecidableEq

/-- `__test_types` of numpy.core.numerictypes: the order in which a common type is looked for. -/
def order : List Ty := [.b1, .i1, .u1, .i2, .u2, .i4, .u4, .i8, .u8, .f2, .f4, .f8, .f16, .c8, .c16, .c32]

instance : Fintype Ty where
  elems := ⟨order, by decide⟩
  complete a := by cases a <;> decide

inductive Kind where
  | bool | int | uint | float | complex
deriving DecidableEq

/-- The kind of a type and the number of bytes of its real numbers. -/
def Ty.info : Ty → Kind × Nat
  | .b1 => (.bool, 1)
  | .i1 => (.int, 1) | .i2 => (.int, 2) | .i4 => (.int, 4) | .i8 => (.int, 8)
  | .u1 => (.uint, 1) | .u2 => (.uint, 2) | .u4 => (.uint, 4) | .u8 => (.uint, 8)
  | .f2 => (.float, 2) | .f4 => (.float, 4) | .f8 => (.float, 8) | .f16 => (.float, 16)
  | .c8 => (.complex, 4) | .c16 => (.complex, 8) | .c32 => (.complex, 16)

/-- `np.can_cast(a, b)`, which is `b >= a`: the safe casts of NumPy. -/
def safe (a b : Ty) : Bool :=
  let (ka, na) := a.info
  let (kb, nb) := b.info
  match ka, kb with
  | .bool, _ => true
  | _, .bool => false
  | .int, .int => na ≤ nb
  | .int, .uint => false
  | .uint, .uint => na ≤ nb
  | .uint, .int => na < nb
  | .float, .float => na ≤ nb
  | .float, .complex => na ≤ nb
  | .float, _ => false
  | .complex, .complex => na ≤ nb
  | .complex, _ => false
  | _, _ => 2 * na ≤ nb || 8 ≤ nb

/-- `_can_coerce_all` of numpy.core.numerictypes, which is what `np.find_common_type(dtypes, [])` returns. -/
def coerceAll : List Ty → Option Ty
  | [] => none
  | [a] => some a
  | l => order.find? fun t => l.all fun a => safe a t

/-- `_find_common_type`: src/pyoperators/core.py:756-762; None is the data type of operators that do not have one. -/
def findCommon (l : List (Option Ty)) : Option Ty := coerceAll (l.filterMap id)

/-- The data type to which the input is converted and of the output that is allocated: src/pyoperators/core.py:1307 and 1391-1394. -/
def callType (op : Option Ty) (x : Ty) : Ty := (findCommon [some x, op]).getD x

/-- The data type of an output that the caller provides is checked: src/pyoperators/core.py:1347-1351; `false` is ValueError. -/
def accepts (op : Option Ty) (x out : Ty) : Bool := decide (out = callType op x)

/-- `CompositeOperator.__init__`: src/pyoperators/core.py:1719-1720: the data type of compositions, sums and products. -/
def composite (ops : List (Option Ty)) : Option Ty := findCommon ops

/-- `_get_dtypes`: src/pyoperators/core.py:2598-2603: the data types of the outputs of the operands, given that of the input. -/
def getDtypes : List (Option Ty) → Ty → List Ty
  | [], _ => []
  | op :: ops, x =>
    let l := getDtypes ops x
    callType op (l.headD x) :: l

/-! ### Specification -/

/-- A binary floating point format: the numbers m 2^e with |m| < 2^p and e in some range. -/
structure Format where
  p : Nat
  emin : Int
  emax : Int
deriving DecidableEq

def Format.Has (f : Format) (q : ℚ) : Prop := ∃ m e : Int, |m| < 2 ^ f.p ∧ f.emin ≤ e ∧ e ≤ f.emax ∧ q = m * 2 ^ e

inductive Values where
  | ints (lo hi : Int)
  | reals (f : Format)
  | complexes (f : Format)
deriving DecidableEq

/-- The finite values of the data types. -/
def values : Ty → Values
  | .b1 => .ints 0 1
  | .i1 => .ints (-2 ^ 7) (2 ^ 7 - 1) | .i2 => .ints (-2 ^ 15) (2 ^ 15 - 1) | .i4 => .ints (-2 ^ 31) (2 ^ 31 - 1) | .i8 => .ints (-2 ^ 63) (2 ^ 63 - 1)
  | .u1 => .ints 0 (2 ^ 8 - 1) | .u2 => .ints 0 (2 ^ 16 - 1) | .u4 => .ints 0 (2 ^ 32 - 1) | .u8 => .ints 0 (2 ^ 64 - 1)
  | .f2 => .reals ⟨11, -24, 5⟩ | .f4 => .reals ⟨24, -149, 104⟩ | .f8 => .reals ⟨53, -1074, 971⟩ | .f16 => .reals ⟨64, -16445, 16320⟩
  | .c8 => .complexes ⟨24, -149, 104⟩ | .c16 => .complexes ⟨53, -1074, 971⟩ | .c32 => .complexes ⟨64, -16445, 16320⟩

/-- The complex number re + i im is a value of the data type. -/
def Values.Has : Values → ℚ → ℚ → Prop
  | .ints lo hi, re, im => im = 0 ∧ ∃ n : Int, re = n ∧ lo ≤ n ∧ n ≤ hi
  | .reals f, re, im => im = 0 ∧ f.Has re
  | .complexes f, re, im => f.Has re ∧ f.Has im

/-- The conversions that NumPy calls safe but are not. -/
def Lossy (a t : Ty) : Prop := (a = .i8 ∨ a = .u8) ∧ (t = .f8 ∨ t = .c16)

instance (a t : Ty) : Decidable (Lossy a t) := inferInstanceAs (Decidable ((a = .i8 ∨ a = .u8) ∧ (t = .f8 ∨ t = .c16)))

/-! ### Proofs: the values -/

theorem Format.has_mono {f g : Format} (hp : f.p ≤ g.p) (h1 : g.emin ≤ f.emin) (h2 : f.emax ≤ g.emax) {q : ℚ} (h : f.Has q) : g.Has q := by
  obtain ⟨m, e, hm, he1, he2, hq⟩ := h
  exact ⟨m, e, lt_of_lt_of_le hm (pow_le_pow_right₀ (by norm_num) hp), le_trans h1 he1, le_trans he2 h2, hq⟩

theorem Format.has_int {f : Format} (h1 : f.emin ≤ 0) (h2 : 0 ≤ f.emax) {lo hi n : Int} (hlo : -2 ^ f.p < lo) (hhi : hi < 2 ^ f.p) (hn : lo ≤ n) (hn' : n ≤ hi) : f.Has n :=
  ⟨n, 0, abs_lt.2 ⟨by omega, by omega⟩, h1, h2, by simp⟩

/-- The inclusion of sets of values, as comparisons of their bounds. -/
def included : Values → Values → Bool
  | .ints lo hi, .ints lo' hi' => decide (lo' ≤ lo) && decide (hi ≤ hi')
  | .ints lo hi, .reals f => decide (f.emin ≤ 0) && decide (0 ≤ f.emax) && decide (-2 ^ f.p < lo) && decide (hi < 2 ^ f.p)
  | .ints lo hi, .complexes f => decide (f.emin ≤ 0) && decide (0 ≤ f.emax) && decide (-2 ^ f.p < lo) && decide (hi < 2 ^ f.p)
  | .reals f, .reals g => decide (f.p ≤ g.p) && decide (g.emin ≤ f.emin) && decide (f.emax ≤ g.emax)
  | .reals f, .complexes g => decide (f.p ≤ g.p) && decide (g.emin ≤ f.emin) && decide (f.emax ≤ g.emax) && decide (g.emin ≤ 0) && decide (0 ≤ g.emax)
  | .complexes f, .complexes g => decide (f.p ≤ g.p) && decide (g.emin ≤ f.emin) && decide (f.emax ≤ g.emax)
  | _, _ => false

theorem included_has {v w : Values} (h : included v w = true) {re im : ℚ} (hv : v.Has re im) : w.Has re im := by
  cases v with
  | ints lo hi =>
    obtain ⟨him, n, hre, h1, h2⟩ := hv
    cases w with
    | ints lo' hi' =>
      simp only [included, Bool.and_eq_true, decide_eq_true_eq] at h
      exact ⟨him, n, hre, le_trans h.1 h1, le_trans h2 h.2⟩
    | reals f =>
      simp only [included, Bool.and_eq_true, decide_eq_true_eq] at h
      exact ⟨him, hre ▸ Format.has_int h.1.1.1 h.1.1.2 h.1.2 h.2 h1 h2⟩
    | complexes f =>
      simp only [included, Bool.and_eq_true, decide_eq_true_eq] at h
      refine ⟨hre ▸ Format.has_int h.1.1.1 h.1.1.2 h.1.2 h.2 h1 h2, 0, 0, by simp, h.1.1.1, h.1.1.2, by simp [him]⟩
  | reals f =>
    obtain ⟨him, hre⟩ := hv
    cases w with
    | ints lo' hi' => cases h
    | reals g =>
      simp only [included, Bool.and_eq_true, decide_eq_true_eq] at h
      exact ⟨him, Format.has_mono h.1.1 h.1.2 h.2 hre⟩
    | complexes g =>
      simp only [included, Bool.and_eq_true, decide_eq_true_eq] at h
      exact ⟨Format.has_mono h.1.1.1.1 h.1.1.1.2 h.1.1.2 hre, 0, 0, by simp, h.1.2, h.2, by simp [him]⟩
  | complexes f =>
    cases w with
    | ints lo' hi' => cases h
    | reals g => cases h
    | complexes g =>
      simp only [included, Bool.and_eq_true, decide_eq_true_eq] at h
      exact ⟨Format.has_mono h.1.1 h.1.2 h.2 hv.1, Format.has_mono h.1.1 h.1.2 h.2 hv.2⟩

theorem safe_included : ∀ a t : Ty, safe a t = true → ¬ Lossy a t → included (values a) (values t) = true := by decide +kernel

/-! ### Proofs: common types -/

theorem safe_refl : ∀ a : Ty, safe a a = true := by decide +kernel

theorem safe_trans : ∀ a b c : Ty, safe a b = true → safe b c = true → safe a c = true := by decide +kernel

theorem order_all : ∀ a : Ty, a ∈ order := by decide +kernel

theorem safe_top : ∀ a : Ty, safe a .c32 = true := by decide +kernel

/-- The first type to which two types can be cast, if one can be cast to the other. -/
theorem coerce_of_safe : ∀ a d : Ty, safe a d = true → coerceAll [d, a] = some d := by decide +kernel

theorem find_single : ∀ a : Ty, (order.find? fun t => safe a t) = some a := by decide +kernel

theorem coerceAll_eq (l : List Ty) (hl : l ≠ []) : coerceAll l = order.find? fun t => l.all fun a => safe a t := by
  match l with
  | [] => exact absurd rfl hl
  | [a] => simp [coerceAll, find_single]
  | a :: b :: l => rfl

theorem coerceAll_some (l : List Ty) (hl : l ≠ []) : ∃ t, coerceAll l = some t ∧ ∀ a ∈ l, safe a t = true := by
  rw [coerceAll_eq l hl]
  cases h : order.find? fun t => l.all fun a => safe a t with
  | none =>
    have := List.find?_eq_none.1 h .c32 (order_all _)
    exact absurd (List.all_eq_true.2 fun a _ => safe_top a) this
  | some t =>
    refine ⟨t, rfl, fun a ha => ?_⟩
    have := List.find?_some h
    exact List.all_eq_true.1 this a ha

theorem coerceAll_perm {l l' : List Ty} (h : l.Perm l') : coerceAll l = coerceAll l' := by
  by_cases hl : l = []
  · subst hl; rw [h.nil_eq]
  · have hl' : l' ≠ [] := fun e => hl (by subst e; exact h.eq_nil)
    rw [coerceAll_eq l hl, coerceAll_eq l' hl']
    congr 1
    funext t
    exact h.all_eq

theorem findCommon_bound (l : List (Option Ty)) (t : Ty) (h : findCommon l = some t) (a : Ty) (ha : some a ∈ l) : safe a t = true := by
  have hm : a ∈ l.filterMap id := List.mem_filterMap.2 ⟨some a, ha, rfl⟩
  obtain ⟨t', ht, hb⟩ := coerceAll_some (l.filterMap id) (List.ne_nil_of_mem hm)
  rw [findCommon, ht] at h
  injection h with h
  exact h ▸ hb a hm

theorem callType_some (a x : Ty) : coerceAll [x, a] = some (callType (some a) x) := by
  obtain ⟨t, ht, -⟩ := coerceAll_some [x, a] (by simp)
  have : findCommon [some x, some a] = some t := ht
  rw [ht, callType, this]
  rfl

theorem callType_none (x : Ty) : callType none x = x := rfl

theorem callType_bound (op : Option Ty) (x : Ty) : safe x (callType op x) = true ∧ ∀ a, op = some a → safe a (callType op x) = true := by
  cases op with
  | none => exact ⟨safe_refl x, fun a h => by cases h⟩
  | some a =>
    have h : findCommon [some x, some a] = some (callType (some a) x) := callType_some a x
    exact ⟨findCommon_bound _ _ h x (by simp), fun b hb => findCommon_bound _ _ h b (by simp [hb])⟩

theorem callType_absorb {op : Option Ty} {d : Ty} (h : ∀ a, op = some a → safe a d = true) : callType op d = d := by
  cases op with
  | none => rfl
  | some a =>
    have := coerce_of_safe a d (h a rfl)
    rw [callType_some] at this
    injection this

theorem callType_of_safe {a x : Ty} (h : safe x a = true) : callType (some a) x = a := by
  have h1 := coerce_of_safe x a h
  rw [coerceAll_perm (List.Perm.swap x a []), callType_some] at h1
  injection h1

/-- The types by which the order sorts are compatible with the casts. -/
theorem safe_order : ∀ t d : Ty, safe t d = true → order.idxOf t ≤ order.idxOf d := by decide +kernel

theorem find_first (p : Ty → Bool) (l : List Ty) (d : Ty) (h : l.find? p = some d) (t : Ty) (ht : p t = true) (hm : t ∈ l) : l.idxOf d ≤ l.idxOf t := by
  induction l with
  | nil => cases hm
  | cons a l ih =>
    rw [List.find?_cons] at h
    cases ha : p a with
    | true =>
      rw [ha] at h
      injection h with h
      subst h
      simp
    | false =>
      rw [ha] at h
      have hd : a ≠ d := fun e => by rw [e, List.find?_some h] at ha; cases ha
      have hta : a ≠ t := fun e => by rw [e, ht] at ha; cases ha
      rw [List.idxOf_cons_ne _ hd, List.idxOf_cons_ne _ hta]
      exact Nat.succ_le_succ (ih h ((List.mem_cons.1 hm).resolve_left fun e => hta e.symm))

theorem idxOf_inj : ∀ t d : Ty, order.idxOf t = order.idxOf d → t = d := by decide +kernel

theorem successive_table : ([.f2, .f4, .f8, .f16, .c8, .c16, .c32].all fun a => [.f2, .f4, .f8, .f16, .c8, .c16, .c32].all fun b => order.all fun x => decide (callType (some (callType (some b) a)) x = callType (some a) (callType (some b) x))) = true := by decide +kernel

theorem inexact_mem : ∀ a : Ty, a.info.1 = .float ∨ a.info.1 = .complex → a ∈ [.f2, .f4, .f8, .f16, .c8, .c16, .c32] := by decide +kernel

theorem successive_float (a b x : Ty) (ha : a.info.1 = .float ∨ a.info.1 = .complex) (hb : b.info.1 = .float ∨ b.info.1 = .complex) : callType (some (callType (some b) a)) x = callType (some a) (callType (some b) x) :=
  of_decide_eq_true (List.all_eq_true.1 (List.all_eq_true.1 (List.all_eq_true.1 successive_table a (inexact_mem a ha)) b (inexact_mem b hb)) x (order_all x))

/-! ### Property C101 -/

/-- For all operators and inputs: the output has the type of the input if the operator has no type; otherwise it is the first type of the hierarchy to which both can be cast, so that there is none to which it can itself be cast and that would do.  An output that is provided is accepted exactly if it has this type. -/
theorem C101_output (op : Option Ty) (x : Ty) :
    (op = none → callType op x = x) ∧
    (∀ a, op = some a → safe x (callType op x) = true ∧ safe a (callType op x) = true ∧ ∀ t, safe x t = true → safe a t = true → safe t (callType op x) = true → t = callType op x) ∧
    ∀ out, accepts op x out = true ↔ out = callType op x := by
  refine ⟨fun h => by rw [h]; rfl, fun a h => ?_, fun out => by simp [accepts]⟩
  subst h
  refine ⟨(callType_bound (some a) x).1, (callType_bound (some a) x).2 a rfl, fun t h1 h2 h3 => ?_⟩
  have hf : (order.find? fun t => [x, a].all fun a => safe a t) = some (callType (some a) x) := callType_some a x
  have h4 := find_first _ _ _ hf t (by simp [h1, h2]) (order_all t)
  exact idxOf_inj _ _ (le_antisymm (safe_order _ _ h3) h4)

/-- For all operands and inputs: the input of a composition is converted to a type to which it and the types of all the operands can be cast, and all the operands work with this type. -/
theorem C101_composition (ops : List (Option Ty)) (x : Ty) :
    safe x (callType (composite ops) x) = true ∧ (∀ a, some a ∈ ops → safe a (callType (composite ops) x) = true) ∧ ∀ t ∈ getDtypes ops (callType (composite ops) x), t = callType (composite ops) x := by
  have hb : ∀ a, some a ∈ ops → safe a (callType (composite ops) x) = true := by
    intro a ha
    have hm : a ∈ ops.filterMap id := List.mem_filterMap.2 ⟨some a, ha, rfl⟩
    obtain ⟨t, ht, hta⟩ := coerceAll_some (ops.filterMap id) (List.ne_nil_of_mem hm)
    have hc : composite ops = some t := ht
    exact safe_trans _ _ _ (hta a hm) ((callType_bound (composite ops) x).2 t hc)
  refine ⟨(callType_bound _ x).1, hb, ?_⟩
  generalize callType (composite ops) x = d at hb
  clear x
  induction ops with
  | nil => intro t ht; cases ht
  | cons op ops ih =>
    have ih := ih fun a ha => hb a (List.mem_cons_of_mem _ ha)
    have hhead : (getDtypes ops d).headD d = d := by
      cases h : getDtypes ops d with
      | nil => rfl
      | cons t l => exact ih t (by rw [h]; exact List.mem_cons_self)
    intro t ht
    simp only [getDtypes, hhead] at ht
    rcases List.mem_cons.1 ht with rfl | ht
    · exact callType_absorb fun a ha => hb a (by rw [ha]; exact List.mem_cons_self)
    · exact ih t ht

/-- The type of a composition, sum or product depends neither on the order of the operands nor on those without type. -/
theorem C101_order (ops ops' : List (Option Ty)) (h : (ops.filter Option.isSome).Perm (ops'.filter Option.isSome)) : composite ops = composite ops' := by
  have hf : ∀ l : List (Option Ty), (l.filter Option.isSome).filterMap id = l.filterMap id := by
    intro l
    induction l with
    | nil => rfl
    | cons a l ih =>
      cases a with
      | none => exact ih
      | some a => exact congrArg (a :: ·) ih
  rw [composite, composite, findCommon, findCommon, ← hf ops, ← hf ops']
  exact coerceAll_perm (h.filterMap id)

/-- The values of the input, and the values of the data of the operator in its own type, are not changed by the conversion to the common type, unless they are 64-bit integers converted to double precision. -/
theorem C101_values_partial (op : Option Ty) (x : Ty) (re im : ℚ) :
    (¬ Lossy x (callType op x) → (values x).Has re im → (values (callType op x)).Has re im) ∧
    ∀ a, op = some a → ¬ Lossy a (callType op x) → (values a).Has re im → (values (callType op x)).Has re im :=
  ⟨fun hl h => included_has (safe_included _ _ (callType_bound op x).1 hl) h, fun a ha hl h => included_has (safe_included _ _ ((callType_bound op x).2 a ha) hl) h⟩

/-- The composition has the same output type as the successive application of the operators, if their types are floating point or complex ones, or if the types of the operators and of the input can be cast one to another. -/
theorem C101_successive_partial (a b : Option Ty) (x : Ty)
    (h : (∀ t, a = some t ∨ b = some t → t.info.1 = .float ∨ t.info.1 = .complex) ∨
      ∀ s t, (s = x ∨ a = some s ∨ b = some s) → (t = x ∨ a = some t ∨ b = some t) → safe s t = true ∨ safe t s = true) :
    callType (composite [a, b]) x = callType a (callType b x) := by
  cases a with
  | none =>
    cases b with
    | none => rfl
    | some b => rfl
  | some a =>
    cases b with
    | none => rfl
    | some b =>
      have hc : composite [some a, some b] = some (callType (some b) a) := callType_some b a
      rw [hc]
      rcases h with h | h
      · exact successive_float a b x (h a (.inl rfl)) (h b (.inr rfl))
      · have hab := h a b (.inr (.inl rfl)) (.inr (.inr rfl))
        have hax := h a x (.inr (.inl rfl)) (.inl rfl)
        have hbx := h b x (.inr (.inr rfl)) (.inl rfl)
        rcases hbx with hbx | hbx
        · rw [callType_absorb (op := some b) (d := x) (by rintro _ ⟨⟩; exact hbx)]
          rcases hab with hab | hab
          · rw [callType_of_safe hab, callType_absorb (op := some b) (d := x) (by rintro _ ⟨⟩; exact hbx), callType_absorb (op := some a) (d := x) (by rintro _ ⟨⟩; exact safe_trans _ _ _ hab hbx)]
          · rw [callType_absorb (op := some b) (d := a) (by rintro _ ⟨⟩; exact hab)]
        · rw [callType_of_safe hbx]
          rcases hab with hab | hab
          · rw [callType_of_safe hab, callType_of_safe hbx, callType_absorb (op := some a) (d := b) (by rintro _ ⟨⟩; exact hab)]
          · rw [callType_absorb (op := some b) (d := a) (by rintro _ ⟨⟩; exact hab), callType_of_safe (safe_trans _ _ _ hbx hab), callType_of_safe hab]

/-- The kind of the output: it is complex exactly if the input or the operator is complex, and integers stay integers, except unsigned 64-bit integers with signed integers. -/
theorem C101_kind (a x : Ty) :
    ((callType (some a) x).info.1 = .complex ↔ a.info.1 = .complex ∨ x.info.1 = .complex) ∧
    ((callType (some a) x).info.1 = .bool ↔ a.info.1 = .bool ∧ x.info.1 = .bool) ∧
    ((callType (some a) x).info.1 = .int ∨ (callType (some a) x).info.1 = .uint ∨ (callType (some a) x).info.1 = .bool ↔
      (∀ t, t = a ∨ t = x → t.info.1 = .int ∨ t.info.1 = .uint ∨ t.info.1 = .bool) ∧ ¬ (a = .u8 ∧ x.info.1 = .int) ∧ ¬ (x = .u8 ∧ a.info.1 = .int)) := by
  revert a x
  decide +kernel

/-! ### Where the code disagrees -/

/-- 2^53 + 1 is not a number of the double precision. -/
theorem not_double : ¬ (⟨53, -1074, 971⟩ : Format).Has (2 ^ 53 + 1) := by
  rintro ⟨m, e, hm, -, -, hq⟩
  rw [abs_lt] at hm
  simp only at hm
  have hN : (2 ^ 53 + 1 : ℚ) = 9007199254740993 := by norm_num
  rw [hN] at hq
  rcases e with k | k
  · have h : (9007199254740993 : ℤ) = m * 2 ^ k := by
      have : ((9007199254740993 : ℤ) : ℚ) = ((m * 2 ^ k : ℤ) : ℚ) := by
        push_cast
        rw [hq, Int.ofNat_eq_natCast, zpow_natCast]
      exact_mod_cast this
    cases k with
    | zero => rw [pow_zero] at h; omega
    | succ k => rw [pow_succ 2 k, ← mul_assoc] at h; omega
  · have h : (9007199254740993 : ℤ) * 2 ^ (k + 1) = m := by
      have : ((9007199254740993 * 2 ^ (k + 1) : ℤ) : ℚ) = (m : ℚ) := by
        push_cast
        rw [hq, zpow_negSucc, mul_assoc, inv_mul_cancel₀ (by positivity), mul_one]
      exact_mod_cast this
    have h1 : (1 : ℤ) ≤ 2 ^ (k + 1) := one_le_pow₀ (by norm_num)
    have h2 : (9007199254740993 : ℤ) * 1 ≤ 9007199254740993 * 2 ^ (k + 1) := mul_le_mul_of_nonneg_left h1 (by norm_num)
    omega

/-- The values of the input are changed by the conversion: an operator of double precision applied to the 64-bit integer 2^53 + 1, which is a value of its type but not one of the common type. -/
theorem C101_values_fails : ∃ (op : Option Ty) (x : Ty) (re im : ℚ), (values x).Has re im ∧ ¬ (values (callType op x)).Has re im := by
  refine ⟨some .f8, .i8, 2 ^ 53 + 1, 0, ⟨rfl, 2 ^ 53 + 1, by norm_num, by norm_num, by norm_num⟩, ?_⟩
  have : callType (some .f8) .i8 = .f8 := by decide +kernel
  rw [this]
  rintro ⟨-, h⟩
  exact not_double h

/-- The type of A * B applied to x is not that of A applied to B(x): with A of type float32, B of type uint16 and x of type int16, it is float32 and float64; so that an output accepted by the one is rejected by the other. -/
theorem C101_successive_fails : ∃ (a b : Option Ty) (x : Ty), callType (composite [a, b]) x ≠ callType a (callType b x) ∧
    ∃ out, accepts (composite [a, b]) x out = true ∧ accepts a (callType b x) out = false :=
  ⟨some .f4, some .u2, .i2, by decide +kernel, .f4, by decide +kernel, by decide +kernel⟩

/-! ### Instances -/

/-- An operator of type float32 applied to integers of 32 bits: the output is of type float64. -/
example : callType (some .f4) .i4 = .f8 ∧ accepts (some .f4) .i4 .f8 = true ∧ accepts (some .f4) .i4 .f4 = false ∧ callType none .i4 = .i4 := by decide +kernel

/-- A composition of operators of types complex64, None and float64 applied to integers: all the operands work with complex128. -/
example : composite [some .c8, none, some .f8] = some .c16 ∧ getDtypes [some .c8, none, some .f8] (callType (composite [some .c8, none, some .f8]) .i2) = [.c16, .c16, .c16] := by decide +kernel

/-- The types one after the other, without the conversion of the input, would not be the same. -/
example : getDtypes [some .c8, none, some .f8] .i2 = [.c16, .f8, .f8] := by decide +kernel

/-- The hypotheses of `C101_order`. -/
example : composite [some .i2, none, some .u2, some .f2] = composite [some .f2, some .i2, some .u2] := C101_order _ _ (by decide)

/-- The hypotheses of `C101_values_partial`: integers of 32 bits and an operator of type float32. -/
example : ¬ Lossy .i4 (callType (some .f4) .i4) ∧ (values .i4).Has (2 ^ 31 - 1) 0 := ⟨by decide +kernel, rfl, 2 ^ 31 - 1, by norm_num, by norm_num, by norm_num⟩

/-- The hypotheses of `C101_successive_partial`: operators of types float16 and complex64, applied to integers. -/
example : callType (composite [some .c8, some .f2]) .i2 = callType (some .c8) (callType (some .f2) .i2) :=
  C101_successive_partial _ _ _ (.inl (by rintro t (h | h) <;> cases h <;> decide))

/-- Complex operators, mixed integers, unsigned integers of 64 bits. -/
example : callType (some .c8) .f8 = .c16 ∧ callType (some .u2) .i2 = .i4 ∧ callType (some .u8) .i1 = .f8 := by decide +kernel

end Verif.Call.Dtype
