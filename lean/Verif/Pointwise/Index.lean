import Verif.Pack.Props
import Mathlib.Algebra.BigOperators.Group.List.Lemmas
import Mathlib.Tactic.Ring
import Mathlib.Tactic.Linarith

/-
Model of the conversions between multi-dimensional and 1-dimensional indices: src/pyoperators/nonlinear.py:853-990
(`_1dNdOperator`, `To1dOperator`, `ToNdOperator`).

Both operators act separately on each multi-index (the elements along the last dimension of the N-d side), so that the model handles
a single one.  The indices are integers.
-/

namespace Verif.Pointwise

open Verif.Shape Verif.Block Verif.Broadcast

/-- The keyword order: src/pyoperators/nonlinear.py:862-864. -/
inductive Order where
  | c
  | f
deriving DecidableEq, Repr

/-- `np.cumproduct`, for the values to come and the product of those before. -/
def cumprod : Nat → List Nat → List Nat
  | _, [] => []
  | a, b :: l => a * b :: cumprod (a * b) l

/-- `self.coefs`: src/pyoperators/nonlinear.py:870-873. -/
def coefs (s : Shape) : Order → List Nat
  | .c => (cumprod 1 (1 :: s.tail.reverse)).reverse
  | .f => cumprod 1 (1 :: s.dropLast)

/-- `_1dNdOperator(shape_, order)`: src/pyoperators/nonlinear.py:857-866.  `none` is the NotImplementedError. -/
def make (s : Shape) (o : Order) : Option (Shape × Order) := if s.length = 1 then none else some (s, o)

/-- `To1dOperator.direct`: src/pyoperators/nonlinear.py:925-926.  `none` is the ValueError of `_validate_to1d` (881-886) or of
`np.dot`. -/
def to1d (op : Shape × Order) (k : List Int) : Option Int :=
  let c := coefs op.1 op.2
  if k.length ≠ op.1.length ∨ k.length ≠ c.length then none else some (((k.zip c).map fun p => p.1 * (p.2 : Int)).sum)

/-- `ToNdOperator.direct`: src/pyoperators/nonlinear.py:974-976.  `none` is the ValueError of the broadcasting of the coefficients
and of the shape. -/
def toNd (op : Shape × Order) (i : Int) : Option (List Int) :=
  let c := coefs op.1 op.2
  if c.length ≠ op.1.length then none
  else some (((c.map fun (n : Nat) => i.fdiv n).zip op.1).map fun p => p.1.fmod (p.2 : Int))

/-- `To1dOperator(shape).I` is `ToNdOperator(shape)`, and conversely: src/pyoperators/nonlinear.py:923 and 972. -/
def inverse (op : Shape × Order) : Option (Shape × Order) := make op.1 op.2

/-! ### Properties -/

/-- The multi-index lies inside the shape. -/
def Inside (s : Shape) (k : List Int) : Prop := List.Forall₂ (fun (i : Int) (d : Nat) => 0 ≤ i ∧ i < (d : Int)) k s

theorem cumprod_append (l : List Nat) : ∀ (a x : Nat), cumprod a (l ++ [x]) = cumprod a l ++ [a * l.prod * x] := by
  induction l with
  | nil => intro a x; simp [cumprod]
  | cons b l ih => intro a x; simp [cumprod, ih, Nat.mul_assoc]

theorem coefs_cons (e d : Nat) (s : Shape) : coefs (e :: d :: s) .c = (d :: s).prod :: coefs (d :: s) .c := by
  simp only [coefs, List.tail_cons, List.reverse_cons, cumprod, cumprod_append]
  simp [Nat.mul_comm]

theorem coefs_single (e : Nat) : coefs [e] .c = [1] := by simp [coefs, cumprod]

theorem coefs_f (s : Shape) : coefs s .f = (coefs s.reverse .c).reverse := by
  simp [coefs, List.tail_reverse]

/-- The 1-d index in C order of a multi-index. -/
def place : Shape → List Int → Int
  | _ :: s, i :: k => i * s.prod + place s k
  | _, _ => 0

/-- The multi-index of a 1-d index in C order. -/
def digits : Shape → Int → List Int
  | [], _ => []
  | d :: s, i => i.fdiv s.prod |>.fmod d |> (· :: digits s i)

theorem coefs_length : ∀ {s : Shape} (_ : s ≠ []) (o : Order), (coefs s o).length = s.length := by
  have h : ∀ {s : Shape}, s ≠ [] → (coefs s .c).length = s.length := by
    intro s hs
    induction s with
    | nil => exact absurd rfl hs
    | cons e s ih =>
      cases s with
      | nil => simp [coefs_single]
      | cons d s => simp [coefs_cons, ih (by simp)]
  intro s hs o
  cases o
  · exact h hs
  · rw [coefs_f, List.length_reverse, h (by simpa using hs), List.length_reverse]

theorem dot_place : ∀ {s : Shape} {k : List Int}, s ≠ [] → k.length = s.length →
    ((k.zip (coefs s .c)).map fun p => p.1 * (p.2 : Int)).sum = place s k := by
  intro s
  induction s with
  | nil => intro k h; exact absurd rfl h
  | cons e s ih =>
    intro k _ hk
    cases k with
    | nil => simp at hk
    | cons i k =>
      cases s with
      | nil =>
        cases k with
        | nil => simp [coefs_single, place]
        | cons => simp at hk
      | cons d s =>
        have := ih (k := k) (by simp) (by simpa using hk)
        rw [coefs_cons, List.zip_cons_cons, List.map_cons, List.sum_cons, this]
        rfl

theorem mod_digits : ∀ {s : Shape} (i : Int), s ≠ [] →
    (((coefs s .c).map fun (n : Nat) => i.fdiv n).zip s).map (fun p => p.1.fmod (p.2 : Int)) = digits s i := by
  intro s
  induction s with
  | nil => intro i h; exact absurd rfl h
  | cons e s ih =>
    intro i _
    cases s with
    | nil => simp [coefs_single, digits]
    | cons d s =>
      rw [coefs_cons, List.map_cons, List.zip_cons_cons, List.map_cons, ih i (by simp)]
      rfl

theorem place_range : ∀ {s : Shape} {k : List Int}, Inside s k → 0 ≤ place s k ∧ place s k < s.prod := by
  intro s k h
  induction h with
  | nil => simp [place]
  | @cons i d k s hi hk ih =>
    simp only [place, List.prod_cons, Nat.cast_mul]
    obtain ⟨h0, h1⟩ := hi
    obtain ⟨h2, h3⟩ := ih
    constructor
    · have : (0 : Int) ≤ i * s.prod := Int.mul_nonneg h0 (Int.natCast_nonneg _)
      omega
    · have : (i + 1) * (s.prod : Int) ≤ d * s.prod := Int.mul_le_mul_of_nonneg_right (by omega) (Int.natCast_nonneg _)
      nlinarith

theorem prod_positive : ∀ {s : List Nat}, (∀ d ∈ s, 0 < d) → 0 < s.prod
  | [], _ => by simp
  | d :: s, h => by
    rw [List.prod_cons]
    exact Nat.mul_pos (h d (by simp)) (prod_positive fun a ha => h a (by simp [ha]))

theorem reverse_zip {α β : Type} : ∀ {l : List α} {l' : List β}, l.length = l'.length →
    (l.zip l').reverse = l.reverse.zip l'.reverse
  | [], [], _ => rfl
  | a :: l, b :: l', h => by
    have h' : l.length = l'.length := by simpa using h
    rw [List.zip_cons_cons, List.reverse_cons, reverse_zip h', List.reverse_cons, List.reverse_cons,
      List.zip_append (by simpa using h')]
    rfl

theorem digits_add : ∀ (s : Shape) (i w : Int), (∀ d ∈ s, 0 < d) → digits s (i + s.prod * w) = digits s i := by
  intro s
  induction s with
  | nil => intros; rfl
  | cons d s ih =>
    intro i w h
    have hp : (0 : Int) < s.prod := by
      exact_mod_cast prod_positive (s := s) fun a ha => h a (by simp [ha])
    have hd : (0 : Int) < d := by exact_mod_cast h d (by simp)
    simp only [digits]
    have e : i + ((d :: s).prod : Nat) * w = i + s.prod * (d * w) := by
      simp only [List.prod_cons, Nat.cast_mul]
      ring
    rw [e, ih i (d * w) fun a ha => h a (by simp [ha])]
    congr 1
    rw [Int.fdiv_eq_ediv_of_nonneg _ (le_of_lt hp), Int.fdiv_eq_ediv_of_nonneg _ (le_of_lt hp), Int.add_mul_ediv_left _ _ (by omega),
      Int.fmod_eq_emod_of_nonneg _ (le_of_lt hd), Int.fmod_eq_emod_of_nonneg _ (le_of_lt hd), Int.add_mul_emod_self_left]

theorem inside_pos {s : Shape} {k : List Int} (h : Inside s k) : ∀ d ∈ s, 0 < d := by
  induction h with
  | nil => simp
  | cons hi _ ih =>
    intro d hd
    rcases List.mem_cons.1 hd with rfl | hd
    · omega
    · exact ih d hd

theorem digits_place : ∀ {s : Shape} {k : List Int}, Inside s k → digits s (place s k) = k := by
  intro s k h
  induction h with
  | nil => rfl
  | @cons i d k s hi hk ih =>
    have hpos := inside_pos hk
    have hp : (0 : Int) < s.prod := by exact_mod_cast prod_positive hpos
    obtain ⟨h2, h3⟩ := place_range hk
    simp only [digits, place]
    rw [Int.add_comm (i * _), Int.mul_comm i, digits_add s _ _ hpos, ih]
    congr 1
    rw [Int.fdiv_eq_ediv_of_nonneg _ (le_of_lt hp), Int.add_mul_ediv_left _ _ (by omega), Int.ediv_eq_zero_of_lt h2 h3,
      Int.fmod_eq_emod_of_nonneg _ (by omega), Int.zero_add, Int.emod_eq_of_lt hi.1 hi.2]

theorem place_digits : ∀ {s : Shape} {i : Int}, 0 ≤ i → i < s.prod → Inside s (digits s i) ∧ place s (digits s i) = i := by
  intro s
  induction s with
  | nil =>
    intro i h0 h1
    simp at h1
    exact ⟨.nil, by simp [place]; omega⟩
  | cons d s ih =>
    intro i h0 h1
    simp only [List.prod_cons, Nat.cast_mul] at h1
    have hdp : 0 < (d : Int) * s.prod := by omega
    have hp : (0 : Int) < s.prod := by
      rcases Nat.eq_zero_or_pos s.prod with h | h
      · simp [h] at hdp
      · exact_mod_cast h
    have hd : (0 : Int) < d := by
      rcases Nat.eq_zero_or_pos d with h | h
      · simp [h] at hdp
      · exact_mod_cast h
    have hpos : ∀ a ∈ s, 0 < a := by
      intro a ha
      rcases Nat.eq_zero_or_pos a with h | h
      · have : s.prod = 0 := List.prod_eq_zero (h ▸ ha)
        simp [this] at hp
      · exact h
    have hm0 := Int.emod_nonneg i (b := s.prod) (by omega)
    have hm1 := Int.emod_lt_of_pos i hp
    obtain ⟨e1, e2⟩ := ih hm0 hm1
    have e3 : digits s i = digits s (i % s.prod) := by
      conv_lhs => rw [← Int.emod_add_mul_ediv i s.prod, digits_add s _ _ hpos]
    have e4 : (i.fdiv s.prod).fmod d = i / s.prod := by
      rw [Int.fdiv_eq_ediv_of_nonneg _ (le_of_lt hp), Int.fmod_eq_emod_of_nonneg _ (le_of_lt hd)]
      refine Int.emod_eq_of_lt (Int.ediv_nonneg h0 (le_of_lt hp)) ?_
      exact Int.ediv_lt_of_lt_mul hp h1
    have e5 : digits (d :: s) i = i / s.prod :: digits s (i % s.prod) := by
      simp only [digits, e4, e3]
    rw [e5]
    refine ⟨.cons ⟨Int.ediv_nonneg h0 (le_of_lt hp), Int.ediv_lt_of_lt_mul hp h1⟩ e1, ?_⟩
    simp only [place, e2]
    rw [Int.mul_comm]
    exact Int.mul_ediv_add_emod i s.prod

/-- A shape for which the operators can be constructed, and do not fail: it has at least two dimensions. -/
theorem to1d_eq {s : Shape} (hs : s ≠ []) {k : List Int} (hk : k.length = s.length) (o : Order) :
    to1d (s, o) k = some (match o with | .c => place s k | .f => place s.reverse k.reverse) := by
  have hl := coefs_length hs o
  unfold to1d
  rw [if_neg (by simp [hl, hk])]
  cases o
  · simp only
    rw [dot_place hs hk]
  · simp only
    rw [← dot_place (s := s.reverse) (k := k.reverse) (by simpa using hs) (by simpa using hk), coefs_f]
    have hl' : k.length = (coefs s.reverse .c).reverse.length := by
      rw [List.length_reverse, coefs_length (by simpa using hs), List.length_reverse, hk]
    congr 1
    have : k.reverse.zip (coefs s.reverse .c) = (k.zip (coefs s.reverse .c).reverse).reverse := by
      rw [reverse_zip hl', List.reverse_reverse]
    rw [this, List.map_reverse, List.sum_reverse]

theorem toNd_eq {s : Shape} (hs : s ≠ []) (i : Int) (o : Order) :
    toNd (s, o) i = some (match o with | .c => digits s i | .f => (digits s.reverse i).reverse) := by
  have hl := coefs_length hs o
  unfold toNd
  rw [if_neg (by simp [hl])]
  cases o
  · simp only
    rw [mod_digits i hs]
  · simp only
    have hl' : (coefs s.reverse .c).length = s.reverse.length := coefs_length (by simpa using hs) _
    rw [← mod_digits (s := s.reverse) i (by simpa using hs), coefs_f, List.map_reverse, ← List.map_reverse]
    congr 1
    rw [← List.map_reverse]
    congr 1
    rw [reverse_zip (by simpa using hl'), List.reverse_reverse, List.map_reverse]

theorem inside_reverse {s : Shape} {k : List Int} (h : Inside s k) : Inside s.reverse k.reverse := List.rel_reverse h

theorem inside_length {s : Shape} {k : List Int} (h : Inside s k) : k.length = s.length := List.Forall₂.length_eq h

/-- C30: the 1-dimensional index of a multi-index inside the shape lies inside the array, and converting it back gives the
multi-index. -/
theorem C30_back {s : Shape} {o : Order} {op inv : Shape × Order} (h : make s o = some op) (hi : inverse op = some inv) (h0 : s ≠ [])
    {k : List Int} (hk : Inside s k) : ∃ i, to1d op k = some i ∧ 0 ≤ i ∧ i < s.prod ∧ toNd inv i = some k := by
  have e : op = (s, o) := by
    unfold make at h
    split at h <;> simp_all
  subst e
  have e : inv = (s, o) := by
    unfold inverse make at hi
    split at hi <;> simp_all
  subst e
  refine ⟨_, to1d_eq h0 (inside_length hk) o, ?_⟩
  rw [toNd_eq h0]
  cases o
  · exact ⟨(place_range hk).1, (place_range hk).2, by simp only; rw [digits_place hk]⟩
  · have := inside_reverse hk
    refine ⟨(place_range this).1, ?_, by simp only; rw [digits_place this, List.reverse_reverse]⟩
    have h := (place_range this).2
    rwa [List.prod_reverse] at h

/-- C30: the multi-index of a 1-dimensional index inside the array lies inside the shape, and converting it back gives the 1-d index. -/
theorem C30_forth {s : Shape} {o : Order} {op inv : Shape × Order} (h : make s o = some op) (hi : inverse op = some inv) (h0 : s ≠ [])
    {i : Int} (hi0 : 0 ≤ i) (hi1 : i < s.prod) : ∃ k, toNd op i = some k ∧ Inside s k ∧ to1d inv k = some i := by
  have e : op = (s, o) := by
    unfold make at h
    split at h <;> simp_all
  subst e
  have e : inv = (s, o) := by
    unfold inverse make at hi
    split at hi <;> simp_all
  subst e
  refine ⟨_, toNd_eq h0 i o, ?_⟩
  cases o
  · obtain ⟨h1, h2⟩ := place_digits hi0 hi1
    exact ⟨h1, by rw [to1d_eq h0 (inside_length h1)]; simp only; rw [h2]⟩
  · obtain ⟨h1, h2⟩ := place_digits (s := s.reverse) hi0 (by rw [List.prod_reverse]; exact hi1)
    have h3 := inside_reverse h1
    rw [List.reverse_reverse] at h3
    exact ⟨h3, by rw [to1d_eq h0 (inside_length h3)]; simp only; rw [List.reverse_reverse, h2]⟩

theorem place_enum : ∀ s : Shape, (enum s).map (fun k => place s (k.map Int.ofNat)) = (List.range s.prod).map Int.ofNat := by
  intro s
  induction s with
  | nil => simp [enum, place]
  | cons d s ih =>
    have key : ∀ i : Nat, ((enum s).map (i :: ·)).map (fun k => place (d :: s) (k.map Int.ofNat)) =
        (List.range s.prod).map fun j => (Int.ofNat (i * s.prod + j)) := by
      intro i
      rw [List.map_map]
      have := congrArg (List.map fun v => (i : Int) * s.prod + v) ih
      rw [List.map_map, List.map_map] at this
      refine Eq.trans ?_ (this.trans ?_)
      · refine List.map_congr_left fun k _ => ?_
        simp [place]
      · refine List.map_congr_left fun j _ => ?_
        simp
    simp only [enum, List.map_flatMap, key, List.prod_cons]
    clear key ih
    induction d with
    | zero => simp
    | succ d ih =>
      rw [List.range_succ, List.flatMap_append, ih, Nat.succ_mul, List.range_add, List.map_append]
      simp [Function.comp_def]

/-- C30: in C order the successive elements of the array have the successive indices; in Fortran order those of its transpose have. -/
theorem C30_order {s : Shape} (h : 2 ≤ s.length) :
    (enum s).map (fun k => to1d (s, .c) (k.map Int.ofNat)) = (List.range s.prod).map (fun i => some (Int.ofNat i)) ∧
      (enum s.reverse).map (fun k => to1d (s, .f) (k.reverse.map Int.ofNat)) =
        (List.range s.prod).map (fun i => some (Int.ofNat i)) := by
  have h0 : s ≠ [] := by
    rintro rfl
    simp at h
  constructor
  · have := congrArg (List.map some) (place_enum s)
    rw [List.map_map, List.map_map] at this
    refine Eq.trans (List.map_congr_left fun k hk => ?_) this
    rw [to1d_eq h0 (by simpa using Pack.enum_length hk)]
    rfl
  · have := congrArg (List.map some) (place_enum s.reverse)
    rw [List.map_map, List.map_map, List.prod_reverse] at this
    refine Eq.trans (List.map_congr_left fun k hk => ?_) this
    rw [to1d_eq h0 (by simpa using Pack.enum_length hk)]
    simp

/-- The hypotheses of C30_back and C30_forth are met. -/
example : make [2, 3] .f = some ([2, 3], .f) ∧ inverse ([2, 3], .f) = some ([2, 3], .f) ∧ Inside [2, 3] [1, 2] ∧
    to1d ([2, 3], .f) [1, 2] = some 5 ∧ to1d ([2, 3], .f) [1, 1] = some 3 ∧ toNd ([2, 3], .f) 3 = some [1, 1] := by
  refine ⟨rfl, rfl, ?_, by decide, by decide, by decide⟩
  exact .cons (by decide) (.cons (by decide) .nil)

/-- C order. -/
example : (enum [2, 3]).map (fun k => to1d ([2, 3], .c) (k.map Int.ofNat)) = [some 0, some 1, some 2, some 3, some 4, some 5] := by
  decide

end Verif.Pointwise
