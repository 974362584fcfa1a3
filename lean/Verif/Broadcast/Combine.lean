import Verif.Broadcast.Special

/-
Property C27: combinations of broadcast diagonals.
-/

namespace Verif.Broadcast

open Verif.Shape Verif.Block

variable {α β γ R : Type}

theorem bshape_comm : ∀ s t : Shape, bshape s t = bshape t s
  | [], [] => rfl
  | [], _ :: _ => rfl
  | _ :: _, [] => rfl
  | a :: s, b :: t => by
    simp only [bshape, bshape_comm s t]
    by_cases h : a = b
    · subst h; simp
    · rw [if_neg h, if_neg (Ne.symm h)]
      by_cases ha : a = 1 <;> by_cases hb : b = 1 <;> simp_all

theorem bshape_isSome : ∀ {s s' t : Shape}, Fits s t → Fits s' t → ∃ u, bshape s s' = some u
  | [], s', _, _, _ => ⟨s', rfl⟩
  | a :: s, [], _, _, _ => ⟨a :: s, rfl⟩
  | a :: s, b :: s', n :: t, h1, h2 => by
    obtain ⟨u, hu⟩ := bshape_isSome h1.2 h2.2
    simp only [bshape, hu]
    by_cases h : a = b
    · simp [h]
    · rcases h1.1 with rfl | rfl
      · simp [h]
      · rcases h2.1 with rfl | rfl
        · simp [h]
        · exact absurd rfl h

/-- The data of the combination of two data that fit an array. -/
theorem oriented_fits {f : R → α → γ} {b : Kind} {a1 : Data R} {a2 : Data α} {t : Shape}
    (h1 : Fits (aligned b a1.shape) (aligned b t)) (h2 : Fits (aligned b a2.shape) (aligned b t)) :
    ∃ d, oriented (b == .rightward) f a1 a2 = some d ∧ bshape (aligned b a1.shape) (aligned b a2.shape) = some (aligned b d.shape) ∧
      Fits (aligned b d.shape) (aligned b t) ∧
      ∀ k, coefficient d b k = f (coefficient a1 b k) (coefficient a2 b k) := by
  obtain ⟨u, hu⟩ := bshape_isSome h1 h2
  obtain ⟨d, hd⟩ := oriented_isSome (f := f) hu
  obtain ⟨hs, hg⟩ := oriented_some hd
  obtain ⟨hf, hi⟩ := bshape_fits hs h1 h2
  refine ⟨d, hd, hs, hf, fun k => ?_⟩
  simp only [coefficient, hg, aligned_aligned, (hi (aligned b k)).1, (hi (aligned b k)).2]

section

variable [CommRing R] [DecidableEq R]

/-- What the constructors ensure. -/
def Valid (o : Op R) : Prop :=
  match o.cls with
  | .mask d b => o.shapein = shapeOf d.shape b ∧ ValidKind d.shape b
  | .diagonal d b => o.shapein = shapeOf d.shape b ∧ ValidKind d.shape b
  | _ => True

theorem valid_mask (m : Data Bool) (b : Option Kind) (h : b = some .scalar → m.shape = []) : Valid (maskOperator m b : Op R) := by
  have hv : ValidKind m.shape (defaultKind m.shape b) := by
    intro e
    by_contra hn
    cases b with
    | none => simp [defaultKind, hn] at e
    | some b => simp only [defaultKind, hn, decide_false, Bool.false_and, Bool.false_eq_true, if_false] at e; exact hn (h (e ▸ rfl))
  simp only [maskOperator]
  split
  · trivial
  · split
    · trivial
    · exact ⟨rfl, hv⟩

/-- The constructor gives valid operators, if the broadcast 'scalar' is not asked for data of rank one or more. -/
theorem valid_diagonal (cast : R → R) (data : Values R) (b : Option Kind) (h : b = some .scalar → data.shape = []) :
    Valid (diagonalOperator cast data b) := by
  have hv : ValidKind data.shape (defaultKind data.shape b) := by
    intro e
    by_contra hn
    cases b with
    | none => simp [defaultKind, hn] at e
    | some b => simp only [defaultKind, hn, decide_false, Bool.false_and, Bool.false_eq_true, if_false] at e; exact hn (h (e ▸ rfl))
  simp only [diagonalOperator]
  split
  · trivial
  · split
    · trivial
    · split
      · trivial
      · split
        · exact valid_mask _ _ (fun e => hv (Option.some.inj e))
        · simp only [Valid, toNums_shape]
          exact ⟨trivial, hv⟩

/-- An operator acts as the diagonal of its data. -/
theorem call_data {o : Op R} (hv : Valid o) {v : Values R} {b : Kind} (hd : o.data = some (v, b)) {x y : Data R} (h : o.call x = some y) :
    Compatible v.shape b x.shape ∧ ValidKind v.shape b ∧ IsDiagonal v.toNums b x y := by
  obtain ⟨c, s⟩ := o
  have compat : ∀ {s' : Shape}, s = shapeOf s' b → s.any (· != x.shape) = false → Fits (aligned b s') (aligned b x.shape) →
      Compatible s' b x.shape := by
    intro s' hs ha hf
    simp only [Compatible]
    split
    · next e =>
      rw [hs, shapeOf, if_pos e] at ha
      simpa using ha
    · exact hf
  cases c with
  | zero => cases hd
  | identity =>
    simp only [Op.data, Option.some.injEq, Prod.mk.injEq] at hd
    obtain ⟨rfl, rfl⟩ := hd
    refine ⟨by simp [Compatible, Values.shape, aligned, Fits], fun _ => rfl, ?_⟩
    simp only [Op.call] at h
    split at h
    · cases h
    · simp only [Option.some.injEq] at h
      subst h
      exact ⟨rfl, fun k _ => by simp [coefficient, Values.toNums]⟩
  | homothety c =>
    simp only [Op.data, Option.some.injEq, Prod.mk.injEq] at hd
    obtain ⟨rfl, rfl⟩ := hd
    refine ⟨by simp [Compatible, Values.shape, aligned, Fits], fun _ => rfl, ?_⟩
    simp only [Op.call] at h
    split at h
    · cases h
    · obtain ⟨z, hz, hs, hg⟩ := apply_fits (apply_some h)
      rw [h, Option.some.injEq] at hz
      subst hz
      exact ⟨hs, fun k hk => by rw [hg k hk]; rfl⟩
  | mask m b' =>
    simp only [Op.data, Option.some.injEq, Prod.mk.injEq] at hd
    obtain ⟨rfl, rfl⟩ := hd
    simp only [Op.call] at h
    split at h
    · cases h
    · next hs' =>
      have hf := apply_some h
      obtain ⟨z, hz, hs, hg⟩ := apply_fits hf
      rw [h, Option.some.injEq] at hz
      subst hz
      refine ⟨compat hv.1 (by simpa using hs') hf, hv.2, hs, fun k hk => ?_⟩
      rw [hg k hk]
      simp only [coefficient, Values.toNums, ofBool]
      split <;> simp_all
  | diagonal d b' =>
    simp only [Op.data, Option.some.injEq, Prod.mk.injEq] at hd
    obtain ⟨rfl, rfl⟩ := hd
    simp only [Op.call] at h
    split at h
    · cases h
    · next hs' =>
      split at h
      · have hf := apply_some h
        obtain ⟨z, hz, hs, hg⟩ := apply_fits hf
        rw [h, Option.some.injEq] at hz
        subst hz
        exact ⟨compat hv.1 (by simpa using hs') hf, hv.2, hs, fun k hk => by rw [hg k hk]; rfl⟩
      · cases h

/-- The alignment of the data that are combined. -/
def side (rightward : Bool) : Kind := if rightward then .rightward else .leftward

theorem side_eq (r : Bool) : (side r == .rightward) = r := by cases r <;> rfl

theorem merge_cases {b1 b2 b : Kind} (h : mergeKinds b1 b2 = some b) :
    let c := side (b1 == .rightward || b2 == .rightward)
    (b1 = c ∨ b1 = .disabled ∨ b1 = .scalar) ∧ (b2 = c ∨ b2 = .disabled ∨ b2 = .scalar) ∧
      (b = c ∨ b = .disabled ∧ (b1 = .disabled ∨ b2 = .disabled) ∨ b = .scalar ∧ b1 = .scalar ∧ b2 = .scalar) := by
  cases b1 <;> cases b2 <;> cases b <;> first | (exfalso; revert h; decide) | decide

/-- The combination of two data is compatible with the inputs that both are compatible with, and its coefficients are the combinations
of theirs. -/
theorem combine_data (add : Bool) {v1 v2 : Values R} {b1 b2 b : Kind} {t : Shape} (hm : mergeKinds b1 b2 = some b)
    (h1 : Compatible v1.shape b1 t) (hv1 : ValidKind v1.shape b1) (h2 : Compatible v2.shape b2 t) (hv2 : ValidKind v2.shape b2)
    (hadd : add = true → ¬ ((∃ a, v1 = .bools a) ∧ ∃ a, v2 = .bools a)) :
    ∃ d, combine add (b1 == .rightward || b2 == .rightward) v1 v2 = some d ∧ Compatible d.shape b t ∧
      ∀ k, inShape t k = true → coefficient d.toNums b k =
        if add then coefficient v1.toNums b1 k + coefficient v2.toNums b2 k else coefficient v1.toNums b1 k * coefficient v2.toNums b2 k := by
  obtain ⟨m1, m2, m⟩ := merge_cases hm
  generalize hr : (b1 == Kind.rightward || b2 == Kind.rightward) = r at m1 m2 m ⊢
  have f1 := h1.fits_merged hv1 m1
  have f2 := h2.fits_merged hv2 m2
  have key : ∃ d, combine add r v1 v2 = some d ∧
      bshape (aligned (side r) v1.shape) (aligned (side r) v2.shape) = some (aligned (side r) d.shape) ∧
      Fits (aligned (side r) d.shape) (aligned (side r) t) ∧ ∀ k, coefficient d.toNums (side r) k =
        if add then coefficient v1.toNums (side r) k + coefficient v2.toNums (side r) k
        else coefficient v1.toNums (side r) k * coefficient v2.toNums (side r) k := by
    have nums : ∀ (a1 a2 : Data R), a1.shape = v1.shape → a2.shape = v2.shape → ∃ d : Data R,
        oriented r (fun x y => if add then x + y else x * y) a1 a2 = some d ∧
        bshape (aligned (side r) v1.shape) (aligned (side r) v2.shape) = some (aligned (side r) d.shape) ∧
        Fits (aligned (side r) d.shape) (aligned (side r) t) ∧ ∀ k, coefficient d (side r) k =
          if add then coefficient a1 (side r) k + coefficient a2 (side r) k else coefficient a1 (side r) k * coefficient a2 (side r) k := by
      intro a1 a2 e1 e2
      obtain ⟨d, hd, hs, hf, hc⟩ := oriented_fits (f := fun x y : R => if add then x + y else x * y) (b := side r) (a1 := a1) (a2 := a2)
        (by rw [e1]; exact f1) (by rw [e2]; exact f2)
      rw [side_eq] at hd
      rw [e1, e2] at hs
      exact ⟨d, hd, hs, hf, hc⟩
    cases v1 with
    | nums a1 =>
      obtain ⟨d, hd, hs, hf, hc⟩ := nums a1 v2.toNums rfl (toNums_shape v2)
      exact ⟨.nums d, by simp only [combine]; rw [show (Values.nums a1).toNums = a1 from rfl, hd]; rfl, hs, hf, hc⟩
    | bools a1 =>
      cases v2 with
      | nums a2 =>
        obtain ⟨d, hd, hs, hf, hc⟩ := nums (Values.bools a1 : Values R).toNums a2 rfl rfl
        exact ⟨.nums d, by simp only [combine]; rw [show (Values.nums a2).toNums = a2 from rfl, hd]; rfl, hs, hf, hc⟩
      | bools a2 =>
        obtain ⟨d, hd, hs, hf, hc⟩ := oriented_fits (f := fun x y : Bool => if add then x || y else x && y) (b := side r) f1 f2
        rw [side_eq] at hd
        refine ⟨.bools d, by simp only [combine]; rw [hd]; rfl, hs, hf, fun k => ?_⟩
        have hadd : add = false := by
          cases add
          · rfl
          · exact absurd ⟨⟨a1, rfl⟩, ⟨a2, rfl⟩⟩ (hadd rfl)
        subst hadd
        have hc := hc k
        simp only [Bool.false_eq_true, if_false] at hc ⊢
        simp only [coefficient, Values.toNums] at hc ⊢
        rw [hc, show ∀ x y : Bool, (ofBool (x && y) : R) = ofBool x * ofBool y from fun x y => by cases x <;> cases y <;> simp [ofBool]]
  obtain ⟨d, hd, hs, hf, hc⟩ := key
  refine ⟨d, hd, ?_⟩
  have hcomp : Compatible d.shape b t ∧ ValidKind d.shape b := by
    rcases m with rfl | ⟨rfl, hdis⟩ | ⟨rfl, e1, e2⟩
    · refine ⟨?_, fun e => ?_⟩
      · rw [Compatible, if_neg (by cases r <;> simp [side])]; exact hf
      · cases r <;> simp [side] at e
    · refine ⟨?_, by intro e; cases e⟩
      simp only [Compatible, if_true]
      rcases hdis with e | e
      · subst e
        simp only [Compatible, if_true] at h1
        rw [h1, bshape_right f2, Option.some.injEq] at hs
        exact (aligned_inj _ hs).symm
      · subst e
        simp only [Compatible, if_true] at h2
        rw [h2, bshape_comm, bshape_right f1, Option.some.injEq] at hs
        exact (aligned_inj _ hs).symm
    · have n1 := hv1 e1
      have n2 := hv2 e2
      rw [n1, n2] at hs
      have : d.shape = [] := by
        have : aligned (side r) ([] : Shape) = [] := by simp [aligned]
        rw [this, bshape, Option.some.injEq] at hs
        exact aligned_inj (side r) (by rw [this, hs])
      rw [this]
      exact ⟨by simp [Compatible, aligned, Fits], fun _ => rfl⟩
  refine ⟨hcomp.1, fun k hk => ?_⟩
  have hb : b = side r ∨ b = .disabled ∨ b = .scalar := by
    rcases m with e | ⟨e, _⟩ | ⟨e, _⟩
    · exact Or.inl e
    · exact Or.inr (Or.inl e)
    · exact Or.inr (Or.inr e)
  rw [← coefficient_merged (b := side r) (by rw [toNums_shape]; exact hcomp.1) (by rw [toNums_shape]; exact hcomp.2) hb hk, hc,
    coefficient_merged (by rw [toNums_shape]; exact h1) (by rw [toNums_shape]; exact hv1) m1 hk,
    coefficient_merged (by rw [toNums_shape]; exact h2) (by rw [toNums_shape]; exact hv2) m2 hk]

/-- The rule does not raise an error, and if it yields an operator, the operator has the property. -/
def Outcome.Holds (p : β → Prop) : Outcome β → Prop
  | .refused => True
  | .error => False
  | .result o => p o

/-- The arrays are the same. -/
def Same (x y : Data R) : Prop := x.shape = y.shape ∧ ∀ k, inShape x.shape k = true → x.get k = y.get k

/-- C27: the composition of two operators that are diagonals, if it is simplified, gives for each input the result of applying them one
after the other, if they can be. -/
theorem C27_composition_partial [Nontrivial R] {cast : R → R} (hcast : Exact cast) (o1 o2 : Op R) (hv1 : Valid o1) (hv2 : Valid o2)
    (x y2 y1 : Data R) (h2 : o2.call x = some y2) (h1 : o1.call y2 = some y1) :
    (ruleBroadcast cast false o1 o2).Holds fun o => ∃ y, o.call x = some y ∧ Same y y1 := by
  simp only [ruleBroadcast]
  split
  · next v1 b1 v2 b2 e1 e2 =>
    obtain ⟨c2, k2, s2, d2⟩ := call_data hv2 e2 h2
    obtain ⟨c1, k1, s1, d1⟩ := call_data hv1 e1 h1
    rw [s2] at c1 s1 d1
    split
    · trivial
    · next b hb =>
      obtain ⟨d, hd, hc, hco⟩ := combine_data false hb c1 k1 c2 k2 (by simp)
      rw [hd]
      obtain ⟨y, hy, hs, hg⟩ := C28_diagonal_partial hcast d b x hc
      refine ⟨y, hy, hs.trans s1.symm, fun k hk => ?_⟩
      rw [hs] at hk
      rw [hg k hk, hco k hk, d1 k hk, d2 k hk]
      simp only [Bool.false_eq_true, if_false]
      ring
  · trivial

/-- C27: the sum of two operators that are diagonals and that are not both masks, if it is simplified, gives for each input the sum of
their results. -/
theorem C27_addition_partial [Nontrivial R] {cast : R → R} (hcast : Exact cast) (o1 o2 : Op R) (hv1 : Valid o1) (hv2 : Valid o2)
    (hm : ¬ ((o1.cls matches .mask _ _) ∧ (o2.cls matches .mask _ _)))
    (x y2 y1 : Data R) (h2 : o2.call x = some y2) (h1 : o1.call x = some y1) :
    (ruleBroadcast cast true o1 o2).Holds fun o => ∃ y, o.call x = some y ∧ Same y ⟨x.shape, fun k => y1.get k + y2.get k⟩ := by
  simp only [ruleBroadcast]
  split
  · next v1 b1 v2 b2 e1 e2 =>
    obtain ⟨c2, k2, s2, d2⟩ := call_data hv2 e2 h2
    obtain ⟨c1, k1, s1, d1⟩ := call_data hv1 e1 h1
    split
    · trivial
    · next b hb =>
      obtain ⟨d, hd, hc, hco⟩ := combine_data true hb c1 k1 c2 k2 (by
        rintro - ⟨⟨a1, rfl⟩, ⟨a2, rfl⟩⟩
        refine hm ⟨?_, ?_⟩
        · obtain ⟨c, s⟩ := o1; cases c <;> simp_all [Op.data]
        · obtain ⟨c, s⟩ := o2; cases c <;> simp_all [Op.data])
      rw [hd]
      obtain ⟨y, hy, hs, hg⟩ := C28_diagonal_partial hcast d b x hc
      refine ⟨y, hy, hs, fun k hk => ?_⟩
      rw [hs] at hk
      rw [hg k hk, hco k hk]
      simp only [if_true]
      rw [d1 k hk, d2 k hk]
      ring
  · trivial

theorem fill_acts (data : Data R) (b : Kind) (t : Shape) (hc : Compatible data.shape b t) :
    ∃ y, (constantOperator data (some b)).fill t = some y ∧ y.shape = t ∧ ∀ k, inShape t k = true → y.get k = coefficient data b k := by
  simp only [constantOperator]
  split
  · next e =>
    simp only [ne_eq, decide_not, Bool.and_eq_true, List.all_eq_true, decide_eq_true_eq] at e
    obtain ⟨y, hy, hs, hg⟩ := apply_fits (f := fun (_ : R) (v : R) => v) (b := .scalar) (x := ⟨t, fun _ => 0⟩)
      (d := ⟨[], fun _ => data.flat.headD 0⟩) (by simp [aligned, Fits])
    refine ⟨y, hy, hs, fun k hk => ?_⟩
    rw [hg k hk, e.2 _ (coefficient_mem (b := b) hc.fits hk)]
  · obtain ⟨y, hy, hs, hg⟩ := apply_fits (f := fun (_ : R) (v : R) => v) (b := defaultKind data.shape (some b)) (x := ⟨t, fun _ => 0⟩)
      (d := data) (compatible_default hc).fits
    refine ⟨y, hy, hs, fun k hk => ?_⟩
    rw [hg k hk, ← coefficient_default]; rfl

/-- C27: the product of two operators that are diagonals, if it is simplified, gives for each input the product of their results, unless
the broadcast of one is disabled and that of the other one is rightward. -/
theorem C27_multiplication_partial (o1 o2 : Op R) (hv1 : Valid o1) (hv2 : Valid o2)
    (hb : ∀ v1 v2 b1 b2, o1.data = some (v1, b1) → o2.data = some (v2, b2) →
      ¬ (b1 = .disabled ∧ b2 = .rightward) ∧ ¬ (b1 = .rightward ∧ b2 = .disabled))
    (x y2 y1 : Data R) (h2 : o2.call x = some y2) (h1 : o1.call x = some y1) :
    (ruleMultiply o1 o2).Holds fun c => ∃ y, timesSquare c x = some y ∧ Same y ⟨x.shape, fun k => y1.get k * y2.get k⟩ := by
  simp only [ruleMultiply]
  split
  · next v1 b1 v2 b2 e1 e2 =>
    obtain ⟨c2, k2, s2, d2⟩ := call_data hv2 e2 h2
    obtain ⟨c1, k1, s1, d1⟩ := call_data hv1 e1 h1
    split
    · trivial
    · next b hm =>
      have hr : (b == Kind.rightward) = (b1 == .rightward || b2 == .rightward) := by
        have := hb _ _ _ _ e1 e2
        cases b1 <;> cases b2 <;> simp_all [mergeKinds]
      obtain ⟨d, hd, hc, hco⟩ := combine_data false hm c1 k1 c2 k2 (by simp)
      rw [hr, hd]
      obtain ⟨y, hy, hs, hg⟩ := fill_acts d.toNums b x.shape (by rw [toNums_shape]; exact hc)
      refine ⟨⟨x.shape, fun k => y.get k * (x.get k * x.get k)⟩, by simp [timesSquare, hy], rfl, fun k hk => ?_⟩
      simp only
      rw [hg k hk, hco k hk, d1 k hk, d2 k hk]
      simp only [Bool.false_eq_true, if_false]
      ring
  · trivial

/-- A diagonal without broadcasting has an explicit shape, whatever it is simplified to. -/
theorem shapein_disabled (cast : R → R) (d : Values R) : (diagonalOperator cast d (some .disabled)).shapein = some d.shape := by
  have hk : defaultKind d.shape (some .disabled) = .disabled := by simp [defaultKind]
  simp only [diagonalOperator, hk]
  split
  · simp [shapeOf]
  · split
    · simp [shapeOf]
    · split
      · simp [shapeOf]
      · split
        · simp only [maskOperator]
          split
          · simp [shapeOf, defaultKind]
          · split <;> simp [shapeOf, defaultKind]
        · simp [shapeOf]

/-- C27: if the data of one of the two operators are not broadcast, the operator that replaces their composition or their sum accepts no other
shape than theirs. -/
theorem C27_explicit [Nontrivial R] (add : Bool) (cast : R → R) (o1 o2 o : Op R) (hv1 : Valid o1) (hv2 : Valid o2)
    (hm : add = true → ¬ ((o1.cls matches .mask _ _) ∧ (o2.cls matches .mask _ _)))
    (hd : (∃ v, o1.data = some (v, .disabled)) ∨ ∃ v, o2.data = some (v, .disabled))
    (x y1 y2 : Data R) (h1 : o1.call x = some y1) (h2 : o2.call x = some y2)
    (h : ruleBroadcast cast add o1 o2 = .result o) (x' y' : Data R) (h' : o.call x' = some y') : x'.shape = x.shape := by
  simp only [ruleBroadcast] at h
  split at h
  · next v1 b1 v2 b2 e1 e2 =>
    obtain ⟨c2, k2, s2, d2⟩ := call_data hv2 e2 h2
    obtain ⟨c1, k1, s1, d1⟩ := call_data hv1 e1 h1
    split at h
    · cases h
    · next b hb =>
      obtain ⟨d, hd', hc, -⟩ := combine_data add hb c1 k1 c2 k2 (by
        rintro ha ⟨⟨a1, rfl⟩, ⟨a2, rfl⟩⟩
        refine hm ha ⟨?_, ?_⟩
        · obtain ⟨c, s⟩ := o1; cases c <;> simp_all [Op.data]
        · obtain ⟨c, s⟩ := o2; cases c <;> simp_all [Op.data])
      rw [hd'] at h
      simp only [Outcome.result.injEq] at h
      have hb' : b = .disabled := by
        rcases hd with ⟨v, e⟩ | ⟨v, e⟩
        · rw [e1] at e
          simp only [Option.some.injEq, Prod.mk.injEq] at e
          obtain ⟨-, rfl⟩ := e
          revert hb
          cases b2 <;> cases b <;> decide
        · rw [e2] at e
          simp only [Option.some.injEq, Prod.mk.injEq] at e
          obtain ⟨-, rfl⟩ := e
          revert hb
          cases b1 <;> cases b <;> decide
      subst hb'
      simp only [Compatible, if_true] at hc
      have hs := shapein_disabled cast d
      rw [h] at hs
      unfold Op.call at h'
      rw [hs, hc] at h'
      by_contra hne
      rw [if_pos (by simpa using fun e => hne e.symm)] at h'
      cases h'
  · cases h

end

/-! ### What fails -/

/-- The masks of three elements that keep all but the first one, and all but the second one. -/
def maskFirst : Op Int := maskOperator ⟨[3], fun k => k == [0]⟩ none

def maskSecond : Op Int := maskOperator ⟨[3], fun k => k == [1]⟩ none

def ones3 : Data Int := ⟨[3], fun _ => 1⟩

/-- C27 fails: the sum of two masks, diag(0, 1, 1) and diag(1, 0, 1), is simplified to the identity instead of diag(1, 1, 2), since the
sum of two arrays of booleans is their logical or. -/
theorem C27_addition_fails :
    (maskFirst.call ones3).map Data.flat = some [0, 1, 1] ∧ (maskSecond.call ones3).map Data.flat = some [1, 0, 1] ∧
    ∃ o, ruleBroadcast id true maskFirst maskSecond = .result o ∧ (o.call ones3).map Data.flat = some [1, 1, 1] := by
  exact ⟨by decide, by decide, _, rfl, by decide⟩

/-- The diagonal of the 2 × 2 array ((1, 2), (3, 4)), and the rightward diagonal of (5, 7). -/
def diag22 : Op Int := diagonalOperator id (.nums ⟨[2, 2], fun k => 2 * k.getD 0 0 + k.getD 1 0 + 1⟩) none

def diag2 : Op Int := diagonalOperator id (.nums ⟨[2], fun k => 2 * k.getD 0 0 + 5⟩) (some .rightward)

def ones22 : Data Int := ⟨[2, 2], fun _ => 1⟩

/-- C27 fails: the product of a diagonal without broadcasting and of one with rightward broadcasting is simplified to another operator:
the elements are multiplied by 5, 7, 5, 7 instead of 5, 5, 7, 7. -/
theorem C27_multiplication_fails :
    (diag22.call ones22).map Data.flat = some [1, 2, 3, 4] ∧ (diag2.call ones22).map Data.flat = some [5, 5, 7, 7] ∧
    ∃ c, ruleMultiply diag22 diag2 = .result c ∧ (timesSquare c ones22).map Data.flat = some [5, 14, 15, 28] := by
  exact ⟨by decide, by decide, _, rfl, by decide⟩

def diag23 : Op Int := diagonalOperator id (.nums ⟨[2, 3], fun k => 3 * k.getD 0 0 + k.getD 1 0 + 1⟩) none

/-- C27 fails: if the last dimensions differ, building the product raises an error. -/
theorem C27_multiplication_error_fails :
    (diag23.call ⟨[2, 3], fun _ => 1⟩).isSome ∧ (diag2.call ⟨[2, 3], fun _ => 1⟩).isSome ∧ ruleMultiply diag23 diag2 = .error := by
  exact ⟨by decide, by decide, rfl⟩

/-! ### Examples -/

/-- The composition of a diagonal without broadcasting and of a leftward one is not applied to a stack of arrays. -/
example : ∃ o, ruleBroadcast id false diag23 (diagonalOperator id (.nums ⟨[3], fun k => (k.getD 0 0 : Int) + 2⟩) (some .leftward)) = .result o ∧
    (o.call ⟨[2, 3], fun _ => 1⟩).isSome ∧ o.call ⟨[5, 2, 3], fun _ => 1⟩ = none := ⟨_, rfl, by decide, by rfl⟩

example : Valid diag23 ∧ Valid diag2 := ⟨valid_diagonal _ _ _ (by simp), valid_diagonal _ _ _ (by simp)⟩

example : ((diag2.call sampleInput).bind diag23.call).map Data.flat = some [5, 20, 45, 308, 420, 546] := by decide

example : ∃ o, ruleBroadcast id false diag23 diag2 = .result o ∧ (o.call sampleInput).map Data.flat = some [5, 20, 45, 308, 420, 546] :=
  ⟨_, rfl, by decide⟩

example : ∃ o, ruleBroadcast id true diag23 diag2 = .result o ∧ (o.call sampleInput).map Data.flat = some [6, 14, 24, 121, 144, 169] :=
  ⟨_, rfl, by decide⟩

example : ruleBroadcast id true diag2 (diagonalOperator id (.nums ⟨[3], fun k => (k.getD 0 0 : Int) + 2⟩) (some .leftward)) matches .refused := by
  decide

example : ∃ c, ruleMultiply diag2 diag2 = .result c ∧ (timesSquare c sampleInput).map Data.flat =
    some [25, 100, 225, 5929, 7056, 8281] := ⟨_, rfl, by decide⟩

end Verif.Broadcast
