import Verif.Broadcast.Model
import Mathlib.Tactic.Ring

/-
Properties C27 (combinations of broadcast diagonals) and C28 (special diagonals).
-/

namespace Verif.Broadcast

open Verif.Shape Verif.Block

variable {α β γ R : Type}

/-! ### Broadcasting -/

/-- The data of shape s can be broadcast across an array of shape t, from the first dimension on. -/
def Fits : Shape → Shape → Prop
  | [], _ => True
  | d :: s, n :: t => (d = 1 ∨ d = n) ∧ Fits s t
  | _ :: _, [] => False

theorem Fits.refl : ∀ s : Shape, Fits s s
  | [] => trivial
  | _ :: s => ⟨Or.inr rfl, Fits.refl s⟩

theorem Fits.eq_of_length : ∀ {s t : Shape}, Fits s t → s.length ≤ t.length
  | [], _, _ => by simp
  | _ :: s, _ :: t, h => by have := Fits.eq_of_length h.2; simp; omega

theorem inShape_length : ∀ {s : Shape} {k : MIndex}, inShape s k = true → k.length = s.length
  | [], [], _ => rfl
  | _ :: s, _ :: k, h => by
    simp only [inShape, Bool.and_eq_true] at h
    simp [inShape_length h.2]

theorem inShape_append : ∀ (s t : Shape) (k l : MIndex), k.length = s.length →
    inShape (s ++ t) (k ++ l) = (inShape s k && inShape t l)
  | [], t, [], l, _ => by simp [inShape]
  | d :: s, t, i :: k, l, h => by
    simp only [List.cons_append, inShape, inShape_append s t k l (by simpa using h), Bool.and_assoc]

theorem inShape_reverse : ∀ (s : Shape) (k : MIndex), inShape s.reverse k.reverse = inShape s k
  | [], [] => rfl
  | [], i :: k => by
    cases h : inShape ([] : Shape).reverse (i :: k).reverse with
    | false => rfl
    | true => have := inShape_length h; simp at this
  | d :: s, [] => by
    cases h : inShape (d :: s).reverse ([] : MIndex).reverse with
    | false => rfl
    | true => have := inShape_length h; simp at this
  | d :: s, i :: k => by
    by_cases hl : k.length = s.length
    · simp only [List.reverse_cons]
      rw [inShape_append _ _ _ _ (by simpa using hl), inShape_reverse s k]
      simp [inShape, Bool.and_comm]
    · have h1 : inShape (d :: s).reverse (i :: k).reverse = false := by
        cases h : inShape (d :: s).reverse (i :: k).reverse with
        | false => rfl
        | true => have := inShape_length h; simp at this; exact absurd this hl
      have h2 : inShape (d :: s) (i :: k) = false := by
        cases h : inShape (d :: s) (i :: k) with
        | false => rfl
        | true => have := inShape_length h; simp at this; exact absurd this hl
      rw [h1, h2]

theorem bshape_fits : ∀ {s s' u t : Shape}, bshape s s' = some u → Fits s t → Fits s' t →
    Fits u t ∧ ∀ k, bindex s (bindex u k) = bindex s k ∧ bindex s' (bindex u k) = bindex s' k
  | [], s', u, t, h, _, h2 => by
    simp only [bshape, Option.some.injEq] at h
    subst h
    refine ⟨h2, fun k => ⟨by simp [bindex], ?_⟩⟩
    clear h2
    induction s' generalizing k with
    | nil => simp [bindex]
    | cons d s' ih =>
      cases k with
      | nil => simp [bindex]
      | cons i k => simp only [bindex, ih, List.cons.injEq, and_true]; split <;> simp
  | a :: s, [], u, t, h, h1, _ => by
    simp only [bshape, Option.some.injEq] at h
    subst h
    refine ⟨h1, fun k => ⟨?_, by simp [bindex]⟩⟩
    clear h1
    generalize a :: s = s'
    induction s' generalizing k with
    | nil => simp [bindex]
    | cons d s' ih =>
      cases k with
      | nil => simp [bindex]
      | cons i k => simp only [bindex, ih, List.cons.injEq, and_true]; split <;> simp
  | a :: s, b :: s', u, [], _, h1, _ => h1.elim
  | a :: s, b :: s', u, n :: t, h, h1, h2 => by
    have key : ∃ c v, u = c :: v ∧ bshape s s' = some v ∧ (c = 1 ∨ c = n) ∧ (a = 1 ∨ a = c) ∧ (b = 1 ∨ b = c) := by
      simp only [bshape] at h
      split at h
      · next e =>
        obtain ⟨v, hv, rfl⟩ := Option.map_eq_some_iff.1 h
        exact ⟨a, v, rfl, hv, h1.1, Or.inr rfl, Or.inr e.symm⟩
      · split at h
        · next e =>
          obtain ⟨v, hv, rfl⟩ := Option.map_eq_some_iff.1 h
          exact ⟨b, v, rfl, hv, h2.1, Or.inl e, Or.inr rfl⟩
        · split at h
          · next e =>
            obtain ⟨v, hv, rfl⟩ := Option.map_eq_some_iff.1 h
            exact ⟨a, v, rfl, hv, h1.1, Or.inr rfl, Or.inl e⟩
          · cases h
    obtain ⟨c, v, rfl, hv, hc, ha, hb⟩ := key
    obtain ⟨hf, hi⟩ := bshape_fits hv h1.2 h2.2
    refine ⟨⟨hc, hf⟩, fun k => ?_⟩
    cases k with
    | nil => simp [bindex]
    | cons i k =>
      simp only [bindex, (hi k).1, (hi k).2, List.cons.injEq, and_true]
      constructor
      · rcases ha with rfl | rfl
        · simp
        · split <;> simp
      · rcases hb with rfl | rfl
        · simp
        · split <;> simp

/-- Broadcasting data that fit an array gives the shape of the array. -/
theorem bshape_right : ∀ {s t : Shape}, Fits s t → bshape t s = some t
  | [], [], _ => rfl
  | [], _ :: _, _ => rfl
  | d :: s, n :: t, h => by
    simp only [bshape, bshape_right h.2]
    rcases h.1 with rfl | rfl
    · by_cases hn : n = 1
      · simp [hn]
      · simp [hn]
    · simp

/-- Conversely, if the broadcasting has the shape of the array, the data fit it. -/
theorem fits_of_bshape : ∀ {s t : Shape}, bshape t s = some t → Fits s t
  | [], _, _ => trivial
  | d :: s, [], h => by simp [bshape] at h
  | d :: s, n :: t, h => by
    simp only [bshape] at h
    split at h
    · next e =>
      obtain ⟨v, hv, hh⟩ := Option.map_eq_some_iff.1 h
      simp only [List.cons.injEq, true_and] at hh
      subst hh
      exact ⟨Or.inr e.symm, fits_of_bshape hv⟩
    · next e =>
      split at h
      · obtain ⟨v, hv, hh⟩ := Option.map_eq_some_iff.1 h
        simp only [List.cons.injEq] at hh
        exact absurd hh.1.symm e
      · split at h
        · next e1 =>
          obtain ⟨v, hv, hh⟩ := Option.map_eq_some_iff.1 h
          simp only [List.cons.injEq, true_and] at hh
          subst hh
          exact ⟨Or.inl e1, fits_of_bshape hv⟩
        · cases h

theorem bindex_self : ∀ {s : Shape} {k : MIndex}, inShape s k = true → bindex s k = k
  | [], [], _ => rfl
  | d :: s, i :: k, h => by
    simp only [inShape, Bool.and_eq_true, decide_eq_true_eq] at h
    simp only [bindex, bindex_self h.2, List.cons.injEq, and_true]
    split
    · omega
    · rfl

/-! ### The specification -/

/-- The multi-index or shape, from the dimension along which the data are aligned: the first one if the broadcast is rightward and the
last one otherwise. -/
def aligned (b : Kind) (l : List Nat) : List Nat := if b = .rightward then l else l.reverse

theorem aligned_aligned (b : Kind) (l : List Nat) : aligned b (aligned b l) = l := by
  simp only [aligned]
  split <;> simp

theorem aligned_inj (b : Kind) {l l' : List Nat} (h : aligned b l = aligned b l') : l = l' := by
  rw [← aligned_aligned b l, h, aligned_aligned]

theorem inShape_aligned (b : Kind) (s : Shape) (k : MIndex) : inShape (aligned b s) (aligned b k) = inShape s k := by
  simp only [aligned]
  split
  · rfl
  · exact inShape_reverse s k

/-- The inputs of a diagonal operator have the shape of the data if the broadcast is disabled, and a shape that the data fit if not. -/
def Compatible (s : Shape) (b : Kind) (t : Shape) : Prop :=
  if b = .disabled then s = t else Fits (aligned b s) (aligned b t)

/-- The coefficient of the element k of the input: the one of the data at the same place, the dimensions of length one and the
missing dimensions being ignored. -/
def coefficient (data : Data R) (b : Kind) (k : MIndex) : R :=
  data.get (aligned b (bindex (aligned b data.shape) (aligned b k)))

/-- The array is the product of the input by the coefficients. -/
def IsDiagonal [Mul R] (data : Data R) (b : Kind) (x y : Data R) : Prop :=
  y.shape = x.shape ∧ ∀ k, inShape x.shape k = true → y.get k = x.get k * coefficient data b k

/-- Only data of rank zero are scalar: this is what the constructors ensure, unless the keyword is given for other data. -/
def ValidKind (s : Shape) (b : Kind) : Prop := b = .scalar → s = []

theorem Compatible.fits {s t : Shape} {b : Kind} (h : Compatible s b t) : Fits (aligned b s) (aligned b t) := by
  simp only [Compatible] at h
  split at h
  · subst h; exact Fits.refl _
  · exact h

/-- The shapes that can be broadcast, either way, for the data of an operator whose broadcast is b0, when they are combined with
those of an operator such that the broadcast of the combination is b. -/
theorem Compatible.fits_merged {s t : Shape} {b0 b : Kind} (h : Compatible s b0 t) (hv : ValidKind s b0)
    (hb : b0 = b ∨ b0 = .disabled ∨ b0 = .scalar) : Fits (aligned b s) (aligned b t) := by
  rcases hb with rfl | rfl | rfl
  · exact h.fits
  · simp only [Compatible, if_true] at h
    subst h; exact Fits.refl _
  · rw [hv rfl]
    simp [aligned, Fits]

/-- The coefficient does not depend on the alignment if the broadcast is disabled or the data are scalar. -/
theorem coefficient_merged {data : Data R} {t : Shape} {b0 b : Kind} (h : Compatible data.shape b0 t) (hv : ValidKind data.shape b0)
    (hb : b0 = b ∨ b0 = .disabled ∨ b0 = .scalar) {k : MIndex} (hk : inShape t k = true) :
    coefficient data b k = coefficient data b0 k := by
  rcases hb with rfl | rfl | rfl
  · rfl
  · simp only [Compatible, if_true] at h
    simp only [coefficient, h]
    rw [bindex_self (by rw [inShape_aligned]; exact hk), bindex_self (by rw [inShape_aligned]; exact hk), aligned_aligned,
      aligned_aligned]
  · simp only [coefficient, hv rfl]
    simp [aligned, bindex]

/-! ### The evaluation -/

theorem oriented_some {f : α → β → γ} {b : Kind} {x : Data α} {d : Data β} {y : Data γ}
    (h : oriented (b == .rightward) f x d = some y) :
    bshape (aligned b x.shape) (aligned b d.shape) = some (aligned b y.shape) ∧
      ∀ k, y.get k = f (x.get (aligned b (bindex (aligned b x.shape) (aligned b k))))
        (d.get (aligned b (bindex (aligned b d.shape) (aligned b k)))) := by
  by_cases hb : b = .rightward
  · subst hb
    simp only [oriented, beq_self_eq_true, if_true, ufunc, Data.T, List.reverse_reverse, Option.map_map, Option.map_eq_some_iff,
      Function.comp] at h
    obtain ⟨s, hs, rfl⟩ := h
    simp [aligned, hs]
  · have : (b == Kind.rightward) = false := by simpa using hb
    simp only [oriented, this, Bool.false_eq_true, if_false, ufunc, Option.map_eq_some_iff] at h
    obtain ⟨s, hs, rfl⟩ := h
    simp [aligned, hb, hs]

theorem oriented_isSome {f : α → β → γ} {b : Kind} {x : Data α} {d : Data β} {u : Shape}
    (h : bshape (aligned b x.shape) (aligned b d.shape) = some u) : ∃ y, oriented (b == .rightward) f x d = some y := by
  by_cases hb : b = .rightward
  · subst hb
    simp only [aligned, if_true] at h
    simp [oriented, ufunc, Data.T, h]
  · have : (b == Kind.rightward) = false := by simpa using hb
    simp only [aligned, if_neg hb] at h
    simp [oriented, this, ufunc, h]

theorem apply_fits {f : R → α → R} {b : Kind} {x : Data R} {d : Data α} (h : Fits (aligned b d.shape) (aligned b x.shape)) :
    ∃ y, apply f b x d = some y ∧ y.shape = x.shape ∧ ∀ k, inShape x.shape k = true →
      y.get k = f (x.get k) (d.get (aligned b (bindex (aligned b d.shape) (aligned b k)))) := by
  obtain ⟨y, hy⟩ := oriented_isSome (f := f) (bshape_right h)
  obtain ⟨hs, hg⟩ := oriented_some hy
  rw [bshape_right h, Option.some.injEq] at hs
  have hs := (aligned_inj b hs).symm
  refine ⟨y, by simp [apply, hy, hs], hs, fun k hk => ?_⟩
  rw [hg, bindex_self (by rw [inShape_aligned]; exact hk), aligned_aligned]

theorem apply_some {f : R → α → R} {b : Kind} {x y : Data R} {d : Data α} (h : apply f b x d = some y) :
    Fits (aligned b d.shape) (aligned b x.shape) := by
  simp only [apply, Option.bind_eq_some_iff] at h
  obtain ⟨z, hz, h⟩ := h
  split at h
  · next e =>
    rw [Option.some.injEq] at h
    have := (oriented_some hz).1
    rw [e] at this
    exact fits_of_bshape this
  · cases h

theorem fits_zip : ∀ {s t : Shape}, Fits s t ↔
    s.length ≤ t.length ∧ ((t.take s.length).zip s).all (fun (si, sd) => sd = 1 || sd = si) = true
  | [], _ => by simp [Fits]
  | d :: s, [] => by simp [Fits]
  | d :: s, n :: t => by
    simp only [Fits, fits_zip (s := s) (t := t), List.length_cons, List.take_succ_cons, List.zip_cons_cons, List.all_cons,
      Bool.and_eq_true, Bool.or_eq_true, decide_eq_true_eq, Nat.add_le_add_iff_right]
    tauto

theorem zip_append_all (p : Nat × Nat → Bool) : ∀ (s t : List Nat) (a b : Nat), s.length = t.length →
    ((s ++ [a]).zip (t ++ [b])).all p = ((s.zip t).all p && p (a, b))
  | [], [], _, _, _ => by simp
  | x :: s, y :: t, a, b, h => by
    simp only [List.cons_append, List.zip_cons_cons, List.all_cons, zip_append_all p s t a b (by simpa using h), Bool.and_assoc]

theorem zip_reverse_all (p : Nat × Nat → Bool) : ∀ (s t : List Nat), s.length = t.length →
    (s.reverse.zip t.reverse).all p = (s.zip t).all p
  | [], [], _ => rfl
  | x :: s, y :: t, h => by
    simp only [List.length_cons, Nat.add_right_cancel_iff] at h
    simp only [List.reverse_cons, List.zip_cons_cons, List.all_cons]
    rw [zip_append_all p _ _ _ _ (by simpa using h), zip_reverse_all p s t h, Bool.and_comm]

/-- `validatein` accepts the shapes that the data fit. -/
theorem validatein_iff (data : Shape) (b : Kind) (s : Shape) :
    validatein data b s = true ↔ Fits (aligned b data) (aligned b s) := by
  rw [fits_zip]
  simp only [validatein]
  by_cases hl : s.length < data.length
  · rw [if_pos hl]
    have : ¬ (aligned b data).length ≤ (aligned b s).length := by
      simp only [aligned]; split <;> simp <;> omega
    simp [this]
  · rw [if_neg hl]
    by_cases hb : b = .rightward
    · subst hb
      simp only [aligned, if_true, List.take_length]
      constructor
      · intro h; exact ⟨by omega, h⟩
      · intro h; exact h.2
    · simp only [aligned, if_neg hb, List.length_reverse]
      rw [List.take_reverse, zip_reverse_all _ _ _ (by simp; omega)]
      constructor
      · intro h; exact ⟨by omega, h⟩
      · intro h; exact h.2

end Verif.Broadcast
