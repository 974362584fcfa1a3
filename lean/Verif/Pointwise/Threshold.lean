import Verif.Pack.Props
import Mathlib.Algebra.Order.Field.Basic
import Mathlib.Algebra.Order.Ring.Rat
import Mathlib.Tactic.Linarith
import Mathlib.Tactic.NormNum

/-
Model of the thresholding operators: src/pyoperators/nonlinear.py:762-850 (`HardThresholdingOperator`, `SoftThresholdingOperator`) and
src/pyoperators/utils/ufuncs.c.src:90-109 and 281-300, and property C32.

The numbers are those of an ordered field: there is no NaN, and a single zero.
-/

namespace Verif.Pointwise

open Verif.Shape Verif.Block Verif.Broadcast Verif.Pack

variable {K : Type} [Field K] [LinearOrder K] [IsStrictOrderedRing K]

/-- `hard_thresholding`: src/pyoperators/utils/ufuncs.c.src:100-102. -/
def hard (x a : K) : K := if a < |x| then x else 0

/-- `copysign(t, x)` for a non-negative t. -/
def copysign (t x : K) : K := if x < 0 then -t else t

/-- `soft_thresholding`: src/pyoperators/utils/ufuncs.c.src:291-293. -/
def soft (x a : K) : K :=
  let tmp := |x| - a
  let tmp := if 0 < tmp then tmp else 0
  copysign tmp x

/-- The two classes. -/
inductive Kind where
  | hard
  | soft
deriving DecidableEq, Repr

/-- The function of a class. -/
def Kind.func : Kind → K → K → K
  | .hard => Pointwise.hard
  | .soft => Pointwise.soft

/-- A thresholding operator, or the identity it has turned into, with the attribute shapein. -/
inductive Thresholding (K : Type) where
  | identity (shapein : Option Shape)
  | threshold (kind : Kind) (a : Data K) (shapein : Option Shape)

/-- `HardThresholdingOperator(a)` and `SoftThresholdingOperator(a)`: src/pyoperators/nonlinear.py:780-795 and 827-841.  `none` is the
ValueError. -/
def threshold (c : Kind) (a : Data K) : Option (Thresholding K) :=
  if a.flat.any (· < 0) then none
  else
    let shapein := if a.shape = [] then none else some a.shape
    if a.flat.all (· = 0) then some (.identity shapein) else some (.threshold c a shapein)

/-- The result for an input: its shape is compared with shapein, and the method direct is called (src/pyoperators/nonlinear.py:802-803
and 843-844). -/
def Thresholding.call : Thresholding K → Data K → Option (Data K)
  | .identity s, x => if s.any (· != x.shape) then none else some x
  | .threshold c a s, x => if s.any (· != x.shape) then none else apply c.func .disabled x a

/-- The rule for the composition of two hard thresholding operators: src/pyoperators/nonlinear.py:796-800.  `none` is an exception. -/
def composition (a b : Data K) : Option (Thresholding K) := (ufunc max a b).bind (threshold .hard)

/-! ### Properties -/

/-- The threshold of the element k of the input. -/
def thresholdAt (a : Data K) (k : MIndex) : K := if a.shape = [] then a.get [] else a.get k

/-- The shapes of the inputs: all of them for a scalar threshold. -/
def Accepts (a : Data K) (s : Shape) : Prop := a.shape = [] ∨ a.shape = s

theorem hard_zero (x : K) : hard x 0 = x := by
  unfold hard
  split
  · rfl
  · rename_i h
    push Not at h
    exact (abs_eq_zero.1 (le_antisymm h (abs_nonneg x))).symm

theorem soft_zero (x : K) : soft x 0 = x := by
  simp only [soft, copysign, sub_zero]
  rcases lt_trichotomy x 0 with h | rfl | h
  · rw [if_pos (abs_pos.2 h.ne), if_pos h, abs_of_neg h, neg_neg]
  · simp
  · rw [if_pos (abs_pos.2 h.ne'), if_neg (not_lt.2 h.le), abs_of_pos h]

theorem func_zero (c : Kind) (x : K) : c.func x 0 = x := by
  cases c
  · exact hard_zero x
  · exact soft_zero x

theorem accepts_inShape {a : Data K} {s : Shape} (h : Accepts a s) {k : MIndex} (hk : inShape s k = true) : thresholdAt a k ∈ a.flat := by
  unfold thresholdAt
  refine mem_flat.2 ?_
  rcases h with h | h
  · exact ⟨[], by simp [h, inShape], by simp [h]⟩
  · by_cases h0 : a.shape = []
    · exact ⟨[], by simp [h0, inShape], by simp [h0]⟩
    · exact ⟨k, by rw [h]; exact hk, by simp [h0]⟩

theorem threshold_nonneg {c : Kind} {a : Data K} {op : Thresholding K} (h : threshold c a = some op) {s : Shape} (hs : Accepts a s)
    {k : MIndex} (hk : inShape s k = true) : 0 ≤ thresholdAt a k := by
  unfold threshold at h
  split at h
  · exact absurd h (by simp)
  · rename_i h0
    by_contra hn
    push Not at hn
    exact h0 (List.any_eq_true.2 ⟨_, accepts_inShape hs hk, by simpa using hn⟩)

theorem shapein_any {a : Data K} {s : Shape} :
    ((if a.shape = [] then none else some a.shape : Option Shape).any (· != s)) = false ↔ Accepts a s := by
  unfold Accepts
  by_cases h : a.shape = []
  · simp [h]
  · simp [h]

theorem apply_threshold {f : K → K → K} {a x : Data K} (h : Accepts a x.shape) :
    ∃ y, apply f .disabled x a = some y ∧ y.shape = x.shape ∧ ∀ k, inShape x.shape k = true → y.get k = f (x.get k) (thresholdAt a k) := by
  have hf : Fits (aligned .disabled a.shape) (aligned .disabled x.shape) := by
    rcases h with h | h
    · rw [h]
      simp [aligned, Fits]
    · rw [h]
      exact Fits.refl _
  obtain ⟨y, h1, h2, h3⟩ := apply_fits (f := f) hf
  refine ⟨y, h1, h2, fun k hk => ?_⟩
  rw [h3 k hk]
  congr 1
  unfold thresholdAt
  by_cases h0 : a.shape = []
  · simp [h0, aligned, bindex]
  · rw [if_neg h0]
    have e := h.resolve_left h0
    rw [e, bindex_self (by rw [inShape_aligned]; exact hk), aligned_aligned]

/-- The evaluation of a thresholding operator, whatever it has turned into. -/
theorem call_some {c : Kind} {a : Data K} {op : Thresholding K} (h : threshold c a = some op) (x : Data K) :
    (Accepts a x.shape → ∃ y, op.call x = some y) ∧ ∀ y, op.call x = some y → Accepts a x.shape ∧ y.shape = x.shape ∧
      ∀ k, inShape x.shape k = true → y.get k = c.func (x.get k) (thresholdAt a k) := by
  unfold threshold at h
  split at h
  · exact absurd h (by simp)
  · simp only at h
    split at h
    · rename_i hz
      obtain rfl := Option.some.inj h
      constructor
      · intro ha
        refine ⟨x, ?_⟩
        unfold Thresholding.call
        simp only [shapein_any.2 ha, Bool.false_eq_true, if_false]
      · intro y hy
        unfold Thresholding.call at hy
        simp only at hy
        by_cases hs : ((if a.shape = [] then none else some a.shape : Option Shape).any (· != x.shape)) = true
        · rw [if_pos hs] at hy
          exact absurd hy (by simp)
        · rw [if_neg hs] at hy
          have ha := shapein_any.1 (by simpa using hs)
          obtain rfl := Option.some.inj hy
          refine ⟨ha, rfl, fun k hk => ?_⟩
          have : thresholdAt a k = 0 := by simpa using List.all_eq_true.1 hz _ (accepts_inShape ha hk)
          rw [this, func_zero]
    · obtain rfl := Option.some.inj h
      constructor
      · intro ha
        obtain ⟨y, hy, -⟩ := apply_threshold (f := c.func) ha
        refine ⟨y, ?_⟩
        unfold Thresholding.call
        simp only [shapein_any.2 ha, Bool.false_eq_true, if_false, hy]
      · intro y hy
        unfold Thresholding.call at hy
        simp only at hy
        by_cases hs : ((if a.shape = [] then none else some a.shape : Option Shape).any (· != x.shape)) = true
        · rw [if_pos hs] at hy
          exact absurd hy (by simp)
        · rw [if_neg hs] at hy
          have ha := shapein_any.1 (by simpa using hs)
          obtain ⟨y', h1, h2, h3⟩ := apply_threshold (f := c.func) (x := x) ha
          rw [hy] at h1
          obtain rfl := Option.some.inj h1
          exact ⟨ha, h2, h3⟩

omit [IsStrictOrderedRing K] in
theorem hard_hard (x : K) {a b : K} : hard (hard x b) a = hard x (max a b) := by
  unfold hard
  by_cases hb : b < |x|
  · rw [if_pos hb]
    simp [hb]
  · rw [if_neg hb]
    simp [hb]

/-- C32: hard thresholding keeps the elements larger in magnitude than the threshold and zeroes the other ones. -/
theorem C32_hard {a : Data K} {op : Thresholding K} (h : threshold .hard a = some op) {x y : Data K} (hy : op.call x = some y) :
    y.shape = x.shape ∧ ∀ k, inShape x.shape k = true →
      (thresholdAt a k < |x.get k| → y.get k = x.get k) ∧ (|x.get k| ≤ thresholdAt a k → y.get k = 0) := by
  obtain ⟨_, h2, h3⟩ := (call_some h x).2 y hy
  refine ⟨h2, fun k hk => ?_⟩
  rw [h3 k hk]
  simp only [Kind.func, hard]
  exact ⟨fun e => if_pos e, fun e => if_neg (not_lt.2 e)⟩

/-- C32: hard thresholding is idempotent. -/
theorem C32_idempotent {a : Data K} {op : Thresholding K} (h : threshold .hard a = some op) {x y : Data K} (hy : op.call x = some y) :
    ∃ z, op.call y = some z ∧ Same z y := by
  obtain ⟨h1, h2, h3⟩ := (call_some h x).2 y hy
  obtain ⟨z, hz⟩ := (call_some h y).1 (h2 ▸ h1)
  obtain ⟨_, h5, h6⟩ := (call_some h y).2 z hz
  refine ⟨z, hz, h5, fun k hk => ?_⟩
  rw [h5] at hk
  have hk' := h2 ▸ hk
  rw [h6 k hk, h3 k hk']
  simp only [Kind.func]
  rw [hard_hard, max_self]

theorem maximum_some {a b : Data K} {s : Shape} (ha : Accepts a s) (hb : Accepts b s) : ∃ c, ufunc max a b = some c ∧ Accepts c s ∧
    (∀ k, inShape s k = true → thresholdAt c k = max (thresholdAt a k) (thresholdAt b k)) ∧
    ∀ v ∈ c.flat, ∃ i j, inShape a.shape i = true ∧ inShape b.shape j = true ∧ v = max (a.get i) (b.get j) := by
  have hab : bshape (aligned .disabled a.shape) (aligned .disabled b.shape) =
      some (aligned .disabled (if a.shape = [] then b.shape else a.shape)) := by
    by_cases h : a.shape = []
    · simp [h, aligned, bshape]
    · rw [if_neg h]
      have e := ha.resolve_left h
      rcases hb with h' | h'
      · rw [h']
        have : aligned .disabled a.shape ≠ [] := by simpa [aligned] using h
        cases e' : aligned .disabled a.shape with
        | nil => exact absurd e' this
        | cons => simp [aligned, bshape]
      · rw [h', ← e]
        exact bshape_right (Fits.refl _)
  obtain ⟨c, hc⟩ := oriented_isSome (f := (max : K → K → K)) hab
  obtain ⟨h1, h2⟩ := oriented_some hc
  rw [hab] at h1
  have hs : c.shape = if a.shape = [] then b.shape else a.shape := (aligned_inj _ (Option.some.inj h1)).symm
  have hcu : ufunc max a b = some c := by simpa [oriented] using hc
  refine ⟨c, hcu, ?_, ?_, ?_⟩
  · unfold Accepts
    rw [hs]
    split
    · exact hb
    · exact ha
  · intro k hk
    have key : ∀ d : Data K, Accepts d s → ∀ l, (l = k ∨ (l = [] ∧ d.shape = [])) →
        d.get (aligned .disabled (bindex (aligned .disabled d.shape) (aligned .disabled l))) = thresholdAt d k := by
      intro d hd l hl
      unfold thresholdAt
      by_cases h0 : d.shape = []
      · simp [h0, aligned, bindex]
      · rcases hl with rfl | ⟨-, e⟩
        · rw [if_neg h0, hd.resolve_left h0, bindex_self (by rw [inShape_aligned]; exact hk), aligned_aligned]
        · exact absurd e h0
    by_cases h0 : c.shape = []
    · have hbs : a.shape = [] ∧ b.shape = [] := by
        by_cases h : a.shape = []
        · rw [if_pos h] at hs
          exact ⟨h, by rw [← hs, h0]⟩
        · rw [if_neg h] at hs
          exact absurd (hs ▸ h0) h
      have e : thresholdAt c k = c.get [] := by simp [thresholdAt, h0]
      rw [e, h2, key a ha [] (.inr ⟨rfl, hbs.1⟩), key b hb [] (.inr ⟨rfl, hbs.2⟩)]
    · have e : thresholdAt c k = c.get k := by simp [thresholdAt, h0]
      rw [e, h2, key a ha k (.inl rfl), key b hb k (.inl rfl)]
  · intro v hv
    obtain ⟨k, hk, rfl⟩ := mem_flat.1 hv
    have fit : ∀ d : Data K, (d.shape = [] ∨ d.shape = c.shape) →
        inShape d.shape (aligned .disabled (bindex (aligned .disabled d.shape) (aligned .disabled k))) = true := by
      intro d hd
      rw [← inShape_aligned .disabled, aligned_aligned]
      refine bindex_inShape (t := aligned .disabled c.shape) ?_ (by rw [inShape_aligned]; exact hk)
      rcases hd with e | e
      · rw [e]
        simp [aligned, Fits]
      · rw [e]
        exact Fits.refl _
    refine ⟨_, _, fit a ?_, fit b ?_, h2 k⟩
    · by_cases h : a.shape = []
      · exact .inl h
      · exact .inr (by rw [hs, if_neg h])
    · rcases hb with h | h
      · exact .inl h
      · by_cases h' : a.shape = []
        · exact .inr (by rw [hs, if_pos h'])
        · exact .inr (by rw [hs, if_neg h', h, ha.resolve_left h'])

/-- C32: the composition of two hard thresholdings is simplified into the hard thresholding by the larger threshold, which has the
same effect. -/
theorem C32_compose {a b : Data K} {f g : Thresholding K} (hf : threshold .hard a = some f) (hg : threshold .hard b = some g)
    {x y z : Data K} (hy : g.call x = some y) (hz : f.call y = some z) :
    ∃ r w, composition a b = some r ∧ r.call x = some w ∧ Same w z := by
  obtain ⟨g1, g2, g3⟩ := (call_some hg x).2 y hy
  obtain ⟨f1, f2, f3⟩ := (call_some hf y).2 z hz
  rw [g2] at f1 f2 f3
  obtain ⟨c, hc, c1, c2, c3⟩ := maximum_some f1 g1
  have hr : ∃ r, threshold .hard c = some r := by
    unfold threshold
    rw [if_neg]
    · simp only
      split <;> exact ⟨_, rfl⟩
    · intro h
      obtain ⟨v, hv, hv0⟩ := List.any_eq_true.1 h
      obtain ⟨i, j, hi, hj, rfl⟩ := c3 v hv
      unfold threshold at hf
      split at hf
      · exact absurd hf (by simp)
      · rename_i hn
        refine hn (List.any_eq_true.2 ⟨a.get i, mem_flat.2 ⟨i, hi, rfl⟩, ?_⟩)
        simp only [decide_eq_true_eq] at hv0 ⊢
        exact lt_of_le_of_lt (le_max_left _ _) hv0
  obtain ⟨r, hr⟩ := hr
  obtain ⟨w, hw⟩ := (call_some hr x).1 c1
  obtain ⟨_, w2, w3⟩ := (call_some hr x).2 w hw
  refine ⟨r, w, by simp [composition, hc, hr], hw, w2.trans f2.symm, fun k hk => ?_⟩
  rw [w2] at hk
  rw [w3 k hk, f3 k hk, g3 k hk, c2 k hk]
  exact (hard_hard _).symm

theorem soft_eq (x a : K) : soft x a = if 0 < |x| - a then (if x < 0 then x + a else x - a) else 0 := by
  simp only [soft, copysign]
  by_cases hp : 0 < |x| - a
  · rw [if_pos hp, if_pos hp]
    by_cases h : x < 0
    · rw [if_pos h, if_pos h, abs_of_neg h]
      ring
    · rw [if_neg h, if_neg h, abs_of_nonneg (not_lt.1 h)]
  · rw [if_neg hp, if_neg hp]
    simp

/-- C32: soft thresholding shrinks the magnitude by the threshold, down to zero, and does not change the sign. -/
theorem C32_soft {a : Data K} {op : Thresholding K} (h : threshold .soft a = some op) {x y : Data K} (hy : op.call x = some y) :
    y.shape = x.shape ∧ ∀ k, inShape x.shape k = true →
      |y.get k| = max (|x.get k| - thresholdAt a k) 0 ∧ (0 < y.get k → 0 < x.get k) ∧ (y.get k < 0 → x.get k < 0) := by
  obtain ⟨h1, h2, h3⟩ := (call_some h x).2 y hy
  refine ⟨h2, fun k hk => ?_⟩
  have ha := threshold_nonneg h h1 hk
  rw [h3 k hk]
  simp only [Kind.func]
  rw [soft_eq]
  generalize x.get k = v at *
  generalize thresholdAt a k = t at *
  split
  · rename_i hp
    rw [max_eq_left hp.le]
    split
    · rename_i hn
      rw [abs_of_neg hn] at hp ⊢
      refine ⟨?_, fun _ => by linarith, fun _ => hn⟩
      rw [abs_of_neg (by linarith)]
      ring
    · rename_i hn
      push Not at hn
      rw [abs_of_nonneg hn] at hp ⊢
      exact ⟨abs_of_pos hp, fun _ => by linarith, fun _ => by linarith⟩
  · rename_i hp
    push Not at hp
    rw [max_eq_right hp]
    simp

/-- C32: soft thresholding does not increase the distance of two inputs. -/
theorem C32_nonexpansive {a : Data K} {op : Thresholding K} (h : threshold .soft a = some op) {x x' y y' : Data K}
    (hy : op.call x = some y) (hy' : op.call x' = some y') (hs : x.shape = x'.shape) :
    ∀ k, inShape x.shape k = true → |y.get k - y'.get k| ≤ |x.get k - x'.get k| := by
  intro k hk
  obtain ⟨h1, h2, h3⟩ := (call_some h x).2 y hy
  obtain ⟨_, _, h3'⟩ := (call_some h x').2 y' hy'
  have ha := threshold_nonneg h h1 hk
  rw [h3 k hk, h3' k (hs ▸ hk)]
  simp only [Kind.func]
  rw [soft_eq, soft_eq]
  generalize x.get k = v at *
  generalize x'.get k = v' at *
  generalize thresholdAt a k = t at *
  have e1 := neg_abs_le v
  have e2 := le_abs_self v
  have e3 := neg_abs_le v'
  have e4 := le_abs_self v'
  have d1 := le_abs_self (v - v')
  have d2 := neg_abs_le (v - v')
  rcases lt_or_ge v 0 with hv | hv <;> rcases lt_or_ge v' 0 with hv' | hv' <;>
    simp only [abs_of_neg, abs_of_nonneg, hv, hv', not_lt.2, if_true, if_false, not_lt] at * <;>
    (split <;> split <;> rw [abs_le] <;> constructor <;> (try push Not at *) <;> linarith)

/-- The hypotheses of the theorems are met: a vector of thresholds after a scalar one. -/
example : ∃ f g : Thresholding ℚ, threshold .hard ⟨[2], fun k => if k = [0] then 1 else 3⟩ = some f ∧
    threshold .hard ⟨[], fun _ => 2⟩ = some g ∧
    ∃ y z, g.call ⟨[2], fun k => if k = [0] then -3 else 5 / 2⟩ = some y ∧ f.call y = some z := by
  have h1 : threshold (K := ℚ) .hard ⟨[2], fun k => if k = [0] then 1 else 3⟩ =
      some (.threshold .hard ⟨[2], fun k => if k = [0] then 1 else 3⟩ (some [2])) := by
    simp only [threshold, Data.flat]
    rw [if_neg (by simp [enum, List.range_succ]), if_neg (by simp [enum, List.range_succ])]
    simp
  have h2 : threshold (K := ℚ) .hard ⟨[], fun _ => 2⟩ = some (.threshold .hard ⟨[], fun _ => 2⟩ none) := by
    simp only [threshold, Data.flat]
    rw [if_neg (by simp [enum]), if_neg (by simp [enum])]
    simp
  obtain ⟨y, hy⟩ := (call_some h2 ⟨[2], fun k => if k = [0] then -3 else 5 / 2⟩).1 (.inl rfl)
  have hs := ((call_some h2 _).2 y hy).2.1
  obtain ⟨z, hz⟩ := (call_some h1 y).1 (.inr hs.symm)
  exact ⟨_, _, h1, h2, y, z, hy, hz⟩

/-- Values. -/
example : hard (5 / 2 : ℚ) 2 = 5 / 2 ∧ hard (-1 : ℚ) 2 = 0 ∧ soft (5 / 2 : ℚ) 2 = 1 / 2 ∧ soft (-3 : ℚ) 2 = -1 := by
  refine ⟨?_, ?_, ?_, ?_⟩ <;> norm_num [hard, soft, copysign, abs_of_pos, abs_of_neg]

end Verif.Pointwise
