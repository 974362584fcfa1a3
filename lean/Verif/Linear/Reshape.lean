import Verif.Pack.Props
import Verif.Shape.Props
import Mathlib.Tactic.Ring

/-
NumPy's method `reshape` (C order), and the broadcasting of shapes by `broadcast_shapes` (src/pyoperators/utils/misc.py:182-215)
compared with the one of NumPy's functions.
-/

namespace Verif.Linear.Reshape

open Verif.Shape Verif.Block Verif.Broadcast Verif.Pack

variable {R : Type}

/-- The rank of a multi-index in C order. -/
def ravel : Shape → MIndex → Nat
  | _ :: s, i :: k => i * s.prod + ravel s k
  | _, _ => 0

/-- The multi-index of a rank. -/
def unravel : Shape → Nat → MIndex
  | [], _ => []
  | _ :: s, q => q / s.prod :: unravel s (q % s.prod)

/-- `x.reshape(t)`: the elements of both arrays are the same in C order. -/
def reshape (x : Data R) (t : Shape) : Data R := ⟨t, fun k => x.get (unravel x.shape (ravel t k))⟩

theorem ravel_append : ∀ (s t : Shape) (k l : MIndex), k.length = s.length → ravel (s ++ t) (k ++ l) = ravel s k * t.prod + ravel t l
  | [], t, [], l, _ => by simp [ravel]
  | d :: s, t, i :: k, l, h => by
    simp only [List.cons_append, ravel, ravel_append s t k l (by simpa using h), List.prod_append]
    ring

theorem ravel_lt : ∀ {s : Shape} {k : MIndex}, inShape s k = true → ravel s k < s.prod
  | [], [], _ => by simp [ravel]
  | d :: s, i :: k, h => by
    simp only [inShape, Bool.and_eq_true, decide_eq_true_eq] at h
    have := ravel_lt h.2
    simp only [ravel, List.prod_cons]
    calc i * s.prod + ravel s k < i * s.prod + s.prod := by omega
      _ = (i + 1) * s.prod := by ring
      _ ≤ d * s.prod := Nat.mul_le_mul_right _ h.1

theorem unravel_ravel : ∀ {s : Shape} {k : MIndex}, inShape s k = true → unravel s (ravel s k) = k
  | [], [], _ => rfl
  | d :: s, i :: k, h => by
    simp only [inShape, Bool.and_eq_true, decide_eq_true_eq] at h
    have hlt := ravel_lt h.2
    simp only [ravel, unravel]
    rw [Nat.mul_comm, Nat.mul_add_div (by omega), Nat.div_eq_of_lt hlt, Nat.mul_add_mod, Nat.mod_eq_of_lt hlt, unravel_ravel h.2]
    rfl

theorem unravel_inShape : ∀ {s : Shape} {q : Nat}, q < s.prod → inShape s (unravel s q) = true ∧ ravel s (unravel s q) = q
  | [], q, h => by
    simp only [List.prod_nil, Nat.lt_one_iff] at h
    subst h
    exact ⟨rfl, rfl⟩
  | d :: s, q, h => by
    rw [List.prod_cons] at h
    have hp : 0 < s.prod := by
      rcases Nat.eq_zero_or_pos s.prod with h0 | h0
      · rw [h0] at h; omega
      · exact h0
    obtain ⟨h1, h2⟩ := unravel_inShape (Nat.mod_lt q hp)
    simp only [unravel, inShape, ravel, h1, h2, Bool.and_true, decide_eq_true_eq]
    exact ⟨(Nat.div_lt_iff_lt_mul hp).2 h, by rw [Nat.mul_comm]; exact Nat.div_add_mod q s.prod⟩

/-- A block of the last axes. -/
theorem unravel_split {s t : Shape} {k : MIndex} {b : Nat} (hk : inShape s k = true) (hb : b < t.prod) :
    unravel (s ++ t) (ravel s k * t.prod + b) = k ++ unravel t b := by
  obtain ⟨h1, h2⟩ := unravel_inShape hb
  have hl := Broadcast.inShape_length hk
  have := ravel_append s t k (unravel t b) hl
  rw [h2] at this
  rw [← this]
  exact unravel_ravel (by rw [Broadcast.inShape_append _ _ _ _ hl, hk, h1]; rfl)

/-- Merging the last axes. -/
theorem reshape_merge (x : Data R) {s t : Shape} (hx : x.shape = s ++ t) {k : MIndex} (hk : inShape s k = true) {q : Nat}
    (hq : q < t.prod) : (reshape x (s ++ [t.prod])).get (k ++ [q]) = x.get (k ++ unravel t q) := by
  simp only [reshape]
  rw [ravel_append _ _ _ _ (Broadcast.inShape_length hk), hx]
  simp only [ravel, List.prod_cons, List.prod_nil, Nat.mul_one, Nat.add_zero]
  rw [unravel_split hk hq]

/-- Splitting the last axis. -/
theorem reshape_split (x : Data R) {s t : Shape} (hx : x.shape = s ++ [t.prod]) {k l : MIndex} (hk : inShape s k = true)
    (hl : inShape t l = true) : (reshape x (s ++ t)).get (k ++ l) = x.get (k ++ [ravel t l]) := by
  simp only [reshape]
  have h := unravel_split (t := [t.prod]) (b := ravel t l) hk (by simpa using ravel_lt hl)
  rw [ravel_append _ _ _ _ (Broadcast.inShape_length hk), hx]
  rw [show [t.prod].prod = t.prod by simp] at h
  rw [h]
  simp [unravel]

/-- Merging groups of axes. -/
theorem reshape_merge₂ (x : Data R) {s t u : Shape} (hx : x.shape = s ++ (t ++ u)) {k : MIndex} (hk : inShape s k = true) {q r : Nat}
    (hq : q < t.prod) (hr : r < u.prod) :
    (reshape x (s ++ [t.prod, u.prod])).get (k ++ [q, r]) = x.get (k ++ (unravel t q ++ unravel u r)) := by
  simp only [reshape]
  obtain ⟨h1, h2⟩ := unravel_inShape hq
  have h3 : q * u.prod + r < (t ++ u).prod := by
    rw [List.prod_append]
    calc q * u.prod + r < q * u.prod + u.prod := by omega
      _ = (q + 1) * u.prod := by ring
      _ ≤ t.prod * u.prod := Nat.mul_le_mul_right _ hq
  have h4 := unravel_split hk h3
  have h5 := unravel_split (t := u) (b := r) h1 hr
  rw [h2] at h5
  rw [h5] at h4
  rw [ravel_append _ _ _ _ (Broadcast.inShape_length hk), hx, ← h4]
  simp [ravel, List.prod_append]

/-- Splitting the last two axes. -/
theorem reshape_split₂ (x : Data R) {s t u : Shape} (hx : x.shape = s ++ [t.prod, u.prod]) {k l m : MIndex} (hk : inShape s k = true)
    (hl : inShape t l = true) (hm : inShape u m = true) :
    (reshape x (s ++ (t ++ u))).get (k ++ (l ++ m)) = x.get (k ++ [ravel t l, ravel u m]) := by
  simp only [reshape]
  have h0 : inShape [t.prod, u.prod] [ravel t l, ravel u m] = true := by simp [inShape, ravel_lt hl, ravel_lt hm]
  have h := unravel_ravel (s := s ++ [t.prod, u.prod]) (k := k ++ [ravel t l, ravel u m])
    (by rw [Broadcast.inShape_append _ _ _ _ (Broadcast.inShape_length hk), hk, h0]; rfl)
  rw [ravel_append _ _ _ _ (Broadcast.inShape_length hk)] at h
  rw [ravel_append _ _ _ _ (Broadcast.inShape_length hk), ravel_append _ _ _ _ (Broadcast.inShape_length hl), hx]
  rw [show (s ++ [t.prod, u.prod]) = s ++ [t.prod, u.prod] from rfl]
  simp only [ravel, List.prod_cons, List.prod_nil, Nat.mul_one, Nat.add_zero] at h
  rw [List.prod_append, h]

theorem enum_eq : ∀ s : Shape, enum s = (List.range s.prod).map (unravel s)
  | [] => rfl
  | d :: s => by
    have key : ∀ d, (List.range d).flatMap (fun i => (enum s).map (i :: ·)) = (List.range (d * s.prod)).map (unravel (d :: s)) := by
      intro d
      induction d with
      | zero => simp
      | succ d ih =>
        rw [List.range_succ, List.flatMap_append, ih, Nat.succ_mul, List.range_add, List.map_append]
        congr 1
        simp only [List.flatMap_cons, List.flatMap_nil, List.append_nil, enum_eq s, List.map_map]
        apply List.map_congr_left
        intro q hq
        have hq := List.mem_range.1 hq
        simp only [Function.comp, unravel]
        rw [Nat.mul_comm, Nat.mul_add_div (by omega), Nat.div_eq_of_lt hq, Nat.mul_add_mod, Nat.mod_eq_of_lt hq]
        rfl
    rw [List.prod_cons, enum]
    exact key d

/-- The sum over the elements along axes that have been merged. -/
theorem sum_unravel [AddCommMonoid R] (s : Shape) (f : MIndex → R) :
    ((List.range s.prod).map fun q => f (unravel s q)).sum = ((enum s).map f).sum := by
  rw [enum_eq, List.map_map]
  rfl

/-! ### Broadcasting -/

theorem bshape_dims : ∀ {s t u : Shape}, bshape s t = some u → u.length = max s.length t.length ∧ ∀ k,
    (s.getD k 1 = 1 ∨ s.getD k 1 = u.getD k 1) ∧ (t.getD k 1 = 1 ∨ t.getD k 1 = u.getD k 1) ∧
    (u.getD k 1 = 1 ∨ s.getD k 1 = u.getD k 1 ∨ t.getD k 1 = u.getD k 1)
  | [], t, u, h => by
    simp only [bshape, Option.some.injEq] at h
    subst h
    simp
  | a :: s, [], u, h => by
    simp only [bshape, Option.some.injEq] at h
    subst h
    simp
  | a :: s, b :: t, u, h => by
    have key : ∃ c v, u = c :: v ∧ bshape s t = some v ∧ (a = 1 ∨ a = c) ∧ (b = 1 ∨ b = c) ∧ (a = c ∨ b = c) := by
      simp only [bshape] at h
      split at h
      · next e =>
        obtain ⟨v, hv, rfl⟩ := Option.map_eq_some_iff.1 h
        exact ⟨a, v, rfl, hv, Or.inr rfl, Or.inr e.symm, Or.inl rfl⟩
      · split at h
        · next e =>
          obtain ⟨v, hv, rfl⟩ := Option.map_eq_some_iff.1 h
          exact ⟨b, v, rfl, hv, Or.inl e, Or.inr rfl, Or.inr rfl⟩
        · split at h
          · next e =>
            obtain ⟨v, hv, rfl⟩ := Option.map_eq_some_iff.1 h
            exact ⟨a, v, rfl, hv, Or.inr rfl, Or.inl e, Or.inl rfl⟩
          · cases h
    obtain ⟨c, v, rfl, hv, ha, hb, hc⟩ := key
    obtain ⟨hl, hk⟩ := bshape_dims hv
    refine ⟨by simp only [List.length_cons, hl]; omega, fun k => ?_⟩
    cases k with
    | zero => simp only [List.getD_cons_zero]; tauto
    | succ k => simpa using hk k

theorem bshape_none : ∀ {s t : Shape}, bshape s t = none → ∃ k, s.getD k 1 ≠ 1 ∧ t.getD k 1 ≠ 1 ∧ s.getD k 1 ≠ t.getD k 1
  | [], t, h => by simp [bshape] at h
  | a :: s, [], h => by simp [bshape] at h
  | a :: s, b :: t, h => by
    simp only [bshape] at h
    have again : bshape s t = none → ∃ k, (a :: s).getD k 1 ≠ 1 ∧ (b :: t).getD k 1 ≠ 1 ∧ (a :: s).getD k 1 ≠ (b :: t).getD k 1 := by
      intro h
      obtain ⟨k, hk⟩ := bshape_none h
      exact ⟨k + 1, by simpa using hk⟩
    split at h
    · exact again (Option.map_eq_none_iff.1 h)
    · next e1 =>
      split at h
      · exact again (Option.map_eq_none_iff.1 h)
      · next e2 =>
        split at h
        · exact again (Option.map_eq_none_iff.1 h)
        · next e3 => exact ⟨0, by simpa using ⟨e2, e3, e1⟩⟩

/-- `broadcast_shapes` on two shapes is NumPy's broadcasting. -/
theorem broadcastShapes_pair (s t : Shape) : broadcastShapes [s, t] = (bshape s.reverse t.reverse).map List.reverse := by
  cases h : bshape s.reverse t.reverse with
  | none =>
    rw [Option.map_none, C20_failure]
    obtain ⟨k, hk⟩ := bshape_none h
    exact Or.inr ⟨s, by simp, t, by simp, k, hk⟩
  | some u =>
    rw [Option.map_some, C20_broadcast]
    obtain ⟨h1, h2⟩ := bshape_dims h
    simp only [List.length_reverse] at h1
    have hd : ∀ k, dimAt u.reverse k = u.getD k 1 := fun k => by rw [dimAt, List.reverse_reverse]
    refine ⟨?_, ?_, ?_, ?_⟩
    · intro a ha
      rw [List.length_reverse, h1]
      simp only [List.mem_cons, List.not_mem_nil, or_false] at ha
      rcases ha with rfl | rfl <;> omega
    · rcases Nat.le_total s.length t.length with h | h
      · exact ⟨t, by simp, by rw [List.length_reverse, h1]; omega⟩
      · exact ⟨s, by simp, by rw [List.length_reverse, h1]; omega⟩
    · intro a ha k
      rw [hd]
      simp only [List.mem_cons, List.not_mem_nil, or_false] at ha
      rcases ha with rfl | rfl
      · exact (h2 k).1
      · exact (h2 k).2.1
    · intro k
      rw [hd]
      rcases (h2 k).2.2 with h | h | h
      · exact Or.inl h
      · exact Or.inr ⟨s, by simp, h⟩
      · exact Or.inr ⟨t, by simp, h⟩

/-- The element of an array of shape s used for the element k of an array it is broadcast to. -/
def pick (s : Shape) (k : MIndex) : MIndex := (bindex s.reverse k.reverse).reverse

theorem bindex_bindex : ∀ {s t : Shape} (k : MIndex), Broadcast.Fits s t → bindex s (bindex t k) = bindex s k
  | [], _, _, _ => by simp [bindex]
  | d :: s, n :: t, [], _ => by simp [bindex]
  | d :: s, n :: t, i :: k, h => by
    simp only [bindex, bindex_bindex k h.2, List.cons.injEq, and_true]
    rcases h.1 with rfl | rfl
    · simp
    · split <;> simp

theorem fits_of_dims : ∀ {s t : Shape}, s.length ≤ t.length → (∀ k, s.getD k 1 = 1 ∨ s.getD k 1 = t.getD k 1) → Broadcast.Fits s t
  | [], _, _, _ => trivial
  | d :: s, [], h, _ => by simp at h
  | d :: s, n :: t, h, hk => by
    refine ⟨by simpa using hk 0, fits_of_dims (by simpa using h) fun k => by simpa using hk (k + 1)⟩

/-- The first shape can be broadcast to the second one. -/
def Into (s t : Shape) : Prop := Broadcast.Fits s.reverse t.reverse

theorem Into.of_left {s t u : Shape} (h : broadcastShapes [s, t] = some u) : Into s u := by
  have := (C20_broadcast _ _).1 h
  refine fits_of_dims ?_ fun k => this.fits s (by simp) k
  simpa using this.le s (by simp)

theorem Into.of_right {s t u : Shape} (h : broadcastShapes [s, t] = some u) : Into t u := by
  have := (C20_broadcast _ _).1 h
  refine fits_of_dims ?_ fun k => this.fits t (by simp) k
  simpa using this.le t (by simp)

theorem pick_pick {s t : Shape} (h : Into s t) (k : MIndex) : pick s (pick t k) = pick s k := by
  simp only [pick, List.reverse_reverse, bindex_bindex _ h]

theorem pick_self {s : Shape} {k : MIndex} (h : inShape s k = true) : pick s k = k := by
  rw [pick, bindex_self (by rw [inShape_reverse, h]), List.reverse_reverse]

theorem bindex_inShape : ∀ {s t : Shape} {k : MIndex}, Broadcast.Fits s t → inShape t k = true → inShape s (bindex s k) = true
  | [], _, _, _, _ => by simp [bindex, inShape]
  | d :: s, n :: t, i :: k, h, hk => by
    simp only [inShape, Bool.and_eq_true, decide_eq_true_eq] at hk
    simp only [bindex, inShape, Bool.and_eq_true, decide_eq_true_eq]
    refine ⟨?_, bindex_inShape h.2 hk.2⟩
    rcases h.1 with rfl | rfl
    · simp
    · split <;> omega

theorem pick_inShape {s t : Shape} {k : MIndex} (h : Into s t) (hk : inShape t k = true) : inShape s (pick s k) = true := by
  rw [pick, ← List.reverse_reverse (as := s), inShape_reverse, List.reverse_reverse]
  exact bindex_inShape h (by rw [inShape_reverse, hk])

theorem Into.dims {s t : Shape} (h : Into s t) : s.length ≤ t.length ∧ ∀ k, dimAt s k = 1 ∨ dimAt s k = dimAt t k := by
  have key : ∀ {s t : Shape}, Broadcast.Fits s t → ∀ k, s.getD k 1 = 1 ∨ s.getD k 1 = t.getD k 1 := by
    intro s
    induction s with
    | nil => intro t _ k; simp
    | cons d s ih =>
      intro t h k
      cases t with
      | nil => exact h.elim
      | cons n t =>
        cases k with
        | zero => simpa using h.1
        | succ k => simpa using ih h.2 k
  exact ⟨by simpa using Fits.eq_of_length h, key h⟩

/-- Broadcasting is associative. -/
theorem broadcast_assoc {a b c ab e : Shape} (h1 : broadcastShapes [a, b] = some ab) (h2 : broadcastShapes [ab, c] = some e)
    {cb : Shape} (h3 : broadcastShapes [c, b] = some cb) : broadcastShapes [a, cb] = some e := by
  rw [C20_broadcast] at *
  have m : ∀ {x y z : Shape}, Broadcasts [x, y] z → z.length = max x.length y.length ∧ (∀ k, dimAt x k = 1 ∨ dimAt x k = dimAt z k) ∧
      (∀ k, dimAt y k = 1 ∨ dimAt y k = dimAt z k) ∧ ∀ k, dimAt z k = 1 ∨ dimAt x k = dimAt z k ∨ dimAt y k = dimAt z k := by
    intro x y z h
    obtain ⟨w, hw, hl⟩ := h.att
    have l1 := h.le x (by simp)
    have l2 := h.le y (by simp)
    refine ⟨?_, h.fits x (by simp), h.fits y (by simp), ?_⟩
    · simp only [List.mem_cons, List.not_mem_nil, or_false] at hw
      rcases hw with rfl | rfl <;> omega
    · intro k
      rcases h.need k with q | ⟨w, hw, q⟩
      · exact Or.inl q
      · simp only [List.mem_cons, List.not_mem_nil, or_false] at hw
        rcases hw with rfl | rfl
        · exact Or.inr (Or.inl q)
        · exact Or.inr (Or.inr q)
  obtain ⟨l1, p1, p2, p3⟩ := m h1
  obtain ⟨l2, q1, q2, q3⟩ := m h2
  obtain ⟨l3, r1, r2, r3⟩ := m h3
  refine ⟨?_, ?_, ?_, ?_⟩
  · intro s hs
    simp only [List.mem_cons, List.not_mem_nil, or_false] at hs
    rcases hs with rfl | rfl <;> omega
  · rcases Nat.le_total a.length cb.length with h | h
    · exact ⟨cb, by simp, by omega⟩
    · exact ⟨a, by simp, by omega⟩
  · intro s hs k
    simp only [List.mem_cons, List.not_mem_nil, or_false] at hs
    have := p1 k; have := p2 k; have := p3 k; have := q1 k; have := q2 k; have := q3 k; have := r1 k; have := r2 k; have := r3 k
    rcases hs with rfl | rfl <;> omega
  · intro k
    have := p1 k; have := p2 k; have := p3 k; have := q1 k; have := q2 k; have := q3 k; have := r1 k; have := r2 k; have := r3 k
    have : dimAt e k = 1 ∨ dimAt a k = dimAt e k ∨ dimAt cb k = dimAt e k := by omega
    rcases this with h | h | h
    · exact Or.inl h
    · exact Or.inr ⟨a, by simp, h⟩
    · exact Or.inr ⟨cb, by simp, h⟩

end Verif.Linear.Reshape
