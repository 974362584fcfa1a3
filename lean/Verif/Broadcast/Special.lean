import Verif.Broadcast.Props
import Mathlib.Algebra.Ring.Int.Defs
import Mathlib.Data.Rat.Floor
import Mathlib.Data.List.Count

/-
Property C28: a diagonal operator that turns into a zero, identity, scalar or mask operator acts as the diagonal.
-/

namespace Verif.Broadcast

open Verif.Shape Verif.Block

variable {α β γ R : Type}

theorem mem_enum : ∀ {s : Shape} {k : MIndex}, k ∈ enum s ↔ inShape s k = true
  | [], [] => by simp [enum, inShape]
  | [], _ :: _ => by simp [enum, inShape]
  | d :: s, [] => by simp [enum, inShape]
  | d :: s, i :: k => by
    simp only [enum, List.mem_flatMap, List.mem_range, List.mem_map, List.cons.injEq, inShape, Bool.and_eq_true, decide_eq_true_eq]
    constructor
    · rintro ⟨j, hj, l, hl, rfl, rfl⟩
      exact ⟨hj, mem_enum.1 hl⟩
    · rintro ⟨hi, hk⟩
      exact ⟨i, hi, k, mem_enum.2 hk, rfl, rfl⟩

theorem mem_flat {a : Data α} {v : α} : v ∈ a.flat ↔ ∃ k, inShape a.shape k = true ∧ a.get k = v := by
  simp [Data.flat, mem_enum]

/-- The element of the data that is used lies in them. -/
theorem bindex_inShape : ∀ {s t : Shape} {k : MIndex}, Fits s t → inShape t k = true → inShape s (bindex s k) = true
  | [], _, _, _, _ => by simp [bindex, inShape]
  | d :: s, n :: t, i :: k, h, hk => by
    simp only [inShape, Bool.and_eq_true, decide_eq_true_eq] at hk
    simp only [bindex, inShape, bindex_inShape h.2 hk.2, Bool.and_true, decide_eq_true_eq]
    rcases h.1 with rfl | rfl
    · simp
    · split <;> omega

theorem coefficient_mem {data : Data R} {b : Kind} {t : Shape} (h : Fits (aligned b data.shape) (aligned b t)) {k : MIndex}
    (hk : inShape t k = true) : coefficient data b k ∈ data.flat := by
  refine mem_flat.2 ⟨_, ?_, rfl⟩
  rw [← inShape_aligned b, aligned_aligned]
  exact bindex_inShape h (by rw [inShape_aligned]; exact hk)

/-! ### Inspection of the values -/

section

variable [Ring R] [DecidableEq R]

/-- The value is -1, 0 or 1. -/
def special (v : R) : Bool := v = 0 || v = 1 || v = -1

theorem inspectLoop_eq (v0 : R) (vs : List R) : ∀ s : Special, (s.same || !s.other) = true →
    inspectLoop v0 vs s =
      if s.other || vs.any (fun v => !special v) then ⟨0, 0, 0, true, s.same && vs.all (· = v0)⟩
      else ⟨s.nmones + vs.countP (fun v => v ≠ 0 ∧ v ≠ 1 ∧ v = -1), s.nzeros + vs.countP (· = 0),
        s.nones + vs.countP (fun v => v ≠ 0 ∧ v = 1), false, s.same && vs.all (· = v0)⟩ := by
  induction vs with
  | nil =>
    intro s h
    cases ho : s.other
    · simp [inspectLoop, ho]
    · simp [inspectLoop, ho] at h ⊢
      simp [h]
  | cons v vs ih =>
    intro s h
    obtain ⟨a, b, c, o, e⟩ := s
    simp only at h
    simp only [inspectLoop, List.any_cons, List.all_cons, List.countP_cons, special]
    by_cases h0 : v = 0
    · by_cases hv : v = v0
      · cases o <;> cases e <;> simp_all [Nat.add_assoc, Nat.add_comm, special]
      · cases o <;> cases e <;> simp_all [Nat.add_assoc, Nat.add_comm, special]
    · by_cases h1 : v = 1
      · by_cases hv : v = v0
        · cases o <;> cases e <;> simp_all [Nat.add_assoc, Nat.add_comm, special]
        · cases o <;> cases e <;> simp_all [Nat.add_assoc, Nat.add_comm, special]
      · by_cases h2 : v = -1
        · by_cases hv : v = v0
          · cases o <;> cases e <;> simp_all [Nat.add_assoc, Nat.add_comm, special]
          · cases o <;> cases e <;> simp_all [Nat.add_assoc, Nat.add_comm, special]
        · by_cases hv : v = v0
          · cases o <;> cases e <;> simp_all [Nat.add_assoc, Nat.add_comm, special]
          · cases o <;> cases e <;> simp_all [Nat.add_assoc, Nat.add_comm, special]

/-- The conversion before the inspection loses nothing. -/
structure Exact (cast : R → R) : Prop where
  inj : Function.Injective cast
  zero : cast 0 = 0
  one : cast 1 = 1

theorem Exact.eq_zero {cast : R → R} (h : Exact cast) (v : R) : cast v = 0 ↔ v = 0 :=
  ⟨fun e => h.inj (e.trans h.zero.symm), fun e => e ▸ h.zero⟩

theorem Exact.eq_one {cast : R → R} (h : Exact cast) (v : R) : cast v = 1 ↔ v = 1 :=
  ⟨fun e => h.inj (e.trans h.one.symm), fun e => e ▸ h.one⟩

theorem countP_add_countP_le (l : List R) (p q : R → Bool) (hpq : ∀ v ∈ l, p v = true → q v = false) :
    l.countP q + l.countP p = l.length ↔ ∀ v ∈ l, p v = true ∨ q v = true := by
  have : l.countP (fun v => p v || q v) = l.countP q + l.countP p := by
    induction l with
    | nil => rfl
    | cons a l ih =>
      have ih := ih (fun v hv => hpq v (List.mem_cons_of_mem _ hv))
      have ha := hpq a (by simp)
      simp only [List.countP_cons, ih]
      cases hp : p a <;> cases hq : q a <;> simp_all <;> omega
  rw [← this, List.countP_eq_length]
  simp

/-- What the inspection says of the values. -/
structure Inspected (l : List R) (i : Special) : Prop where
  zeros : i.nzeros = l.length ↔ ∀ v ∈ l, v = 0
  ones : l ≠ [] → (i.nones = l.length ↔ ∀ v ∈ l, v = 1)
  same : l ≠ [] → (i.same = true ↔ ∀ v ∈ l, v = l.headD 0)
  bits : l ≠ [] → (i.nones + i.nzeros = l.length ↔ ∀ v ∈ l, v = 0 ∨ v = 1)

theorem inspected_nil (i : Special) (h : i.nzeros = 0) : Inspected ([] : List R) i := by
  constructor <;> simp [h]

theorem inspected_bools [Nontrivial R] (l : List Bool) (hn : l ≠ []) : Inspected (l.map (ofBool (R := R))) (inspectBools l) := by
  have hpos : 0 < l.length := List.length_pos_iff.2 hn
  have hc : l.count false ≤ l.length := List.count_le_length
  have hz : l.count false = l.length ↔ ∀ v ∈ l, v = false := by
    rw [List.count_eq_length]; exact forall₂_congr fun v _ => eq_comm
  have ho : l.count false = 0 ↔ ∀ v ∈ l, v = true := by
    rw [List.count_eq_zero]
    constructor
    · intro h v hv
      cases v
      · exact absurd hv h
      · rfl
    · intro h hv
      exact absurd (h _ hv) (by simp)
  constructor
  · simp only [inspectBools, List.length_map, hz, List.forall_mem_map]
    exact forall₂_congr fun v _ => by cases v <;> simp [ofBool]
  · intro _
    simp only [inspectBools, List.length_map, List.forall_mem_map]
    rw [show l.length - l.count false = l.length ↔ l.count false = 0 by omega, ho]
    exact forall₂_congr fun v _ => by cases v <;> simp [ofBool]
  · intro _
    simp only [inspectBools, List.forall_mem_map, Bool.or_eq_true, decide_eq_true_eq, hz, ho]
    obtain ⟨a, l, rfl⟩ := List.exists_cons_of_ne_nil hn
    simp only [List.map_cons, List.headD_cons, List.forall_mem_cons]
    cases a
    · simp [ofBool]
    · simp [ofBool]
  · intro _
    simp only [inspectBools, List.length_map, List.forall_mem_map]
    constructor
    · intro _ v _
      cases v <;> simp [ofBool]
    · intro _; omega

theorem inspected_nums [Nontrivial R] {cast : R → R} (hc : Exact cast) (l : List R) (hl : l ≠ []) (v : R) (vs : List R) (h : l.map cast = v :: vs) :
    Inspected l (inspectLoop v (v :: vs) ⟨0, 0, 0, false, true⟩) := by
  rw [inspectLoop_eq _ _ _ (by simp), ← h]
  have hpos : 0 < l.length := List.length_pos_iff.2 hl
  have hsame : (l.map cast).all (· = v) = true ↔ ∀ w ∈ l, w = l.headD 0 := by
    obtain ⟨a, l, rfl⟩ := List.exists_cons_of_ne_nil hl
    simp only [List.map_cons, List.cons.injEq] at h
    rw [← h.1]
    simp only [List.all_eq_true, List.forall_mem_map, decide_eq_true_eq, List.headD_cons]
    exact forall₂_congr fun w _ => hc.inj.eq_iff
  by_cases ho : (l.map cast).any (fun v => !special v) = true
  · simp only [ho, Bool.or_true, if_true, Bool.true_and]
    obtain ⟨w, hw, hs⟩ := List.any_eq_true.1 ho
    obtain ⟨u, hu, rfl⟩ := List.mem_map.1 hw
    simp only [special, hc.eq_zero, hc.eq_one, Bool.not_eq_eq_eq_not, Bool.not_true, Bool.or_eq_false_iff, decide_eq_false_iff_not] at hs
    constructor
    · simp only
      constructor
      · intro e; omega
      · intro e; exact absurd (e u hu) hs.1.1
    · intro _
      simp only
      constructor
      · intro e; omega
      · intro e; exact absurd (e u hu) hs.1.2
    · intro _; exact hsame
    · intro _
      simp only
      constructor
      · intro e; omega
      · intro e
        rcases e u hu with e | e
        · exact absurd e hs.1.1
        · exact absurd e hs.1.2
  · simp only [ho, Bool.or_false, Bool.false_eq_true, if_false, Nat.zero_add, Bool.true_and]
    have hz : (l.map cast).countP (· = 0) = l.countP (· = 0) := by
      rw [List.countP_map]; congr 1; funext w; simp [hc.eq_zero]
    have hone : (l.map cast).countP (fun v => v ≠ 0 ∧ v = 1) = l.countP (fun v => v ≠ 0 ∧ v = 1) := by
      rw [List.countP_map]; congr 1; funext w; simp [hc.eq_zero, hc.eq_one]
    constructor
    · simp only [hz, List.countP_eq_length, decide_eq_true_eq]
    · intro _
      simp only [hone, List.countP_eq_length, decide_eq_true_eq]
      exact forall₂_congr fun w _ => ⟨fun e => e.2, fun e => ⟨by rw [e]; exact one_ne_zero, e⟩⟩
    · intro _; exact hsame
    · intro _
      simp only [hz, hone]
      rw [countP_add_countP_le]
      · refine forall₂_congr fun w _ => ?_
        simp only [decide_eq_true_eq]
        tauto
      · intro w _ hw
        simp only [decide_eq_true_eq] at hw
        simp [hw]

theorem toNums_shape (data : Values R) : data.toNums.shape = data.shape := by cases data <;> rfl

theorem inspected [Nontrivial R] {cast : R → R} (hc : Exact cast) (data : Values R) : Inspected data.toNums.flat (inspect cast data) := by
  cases data with
  | bools a =>
    have hl : (Values.bools a : Values R).toNums.flat = a.flat.map ofBool := by simp [Values.toNums, Data.flat]
    rw [hl]
    by_cases hn : a.flat = []
    · simp only [inspect, hn, if_true, List.map_nil]
      exact inspected_nil _ rfl
    · simp only [inspect, hn, if_false]
      exact inspected_bools _ hn
  | nums a =>
    simp only [Values.toNums]
    by_cases hn : a.flat = []
    · simp only [inspect, hn, List.map_nil]
      exact inspected_nil _ rfl
    · obtain ⟨v, vs, h⟩ := List.exists_cons_of_ne_nil (l := a.flat.map cast) (by simpa using hn)
      simp only [inspect, h]
      exact inspected_nums hc _ hn v vs h

/-! ### The operators act as the diagonal -/

theorem any_ne {o : Option Shape} {t : Shape} (h : ∀ s, o = some s → s = t) : o.any (· != t) = false := by
  cases o with
  | none => rfl
  | some s => simp [h s rfl]

theorem shapeOf_compatible {s t : Shape} {b : Kind} (h : Compatible s b t) : (shapeOf s b).any (· != t) = false := by
  refine any_ne fun u hu => ?_
  simp only [shapeOf] at hu
  split at hu
  · next e =>
    simp only [Compatible, if_pos e] at h
    rw [← Option.some.inj hu, h]
  · cases hu

/-- The data are used in the same way if their rank is zero, whatever the broadcast. -/
theorem default_some (s : Shape) (b : Kind) : defaultKind s (some b) = b ∨ s = [] ∧ b ≠ .disabled ∧ defaultKind s (some b) = .scalar := by
  by_cases hs : s = []
  · cases b <;> simp [defaultKind, hs]
  · left; simp [defaultKind, hs]

theorem compatible_default {s t : Shape} {b : Kind} (h : Compatible s b t) : Compatible s (defaultKind s (some b)) t := by
  rcases default_some s b with e | ⟨rfl, hb, e⟩
  · rw [e]; exact h
  · rw [e]; simp [Compatible, aligned, Fits]

theorem coefficient_default (data : Data R) (b : Kind) (k : MIndex) :
    coefficient data (defaultKind data.shape (some b)) k = coefficient data b k := by
  rcases default_some data.shape b with e | ⟨hs, hb, e⟩
  · rw [e]
  · rw [e]
    simp [coefficient, hs, aligned, bindex]

theorem call_zero {s : Option Shape} {data : Data R} {b : Kind} {x : Data R} (hs : s.any (· != x.shape) = false)
    (hf : Fits (aligned b data.shape) (aligned b x.shape)) (h : ∀ v ∈ data.flat, v = 0) :
    ∃ y, (Op.mk (.zero : Class R) s).call x = some y ∧ IsDiagonal data b x y := by
  refine ⟨⟨x.shape, fun _ => 0⟩, by simp [Op.call, hs], rfl, fun k hk => ?_⟩
  rw [h _ (coefficient_mem hf hk), mul_zero]

theorem call_identity {s : Option Shape} {data : Data R} {b : Kind} {x : Data R} (hs : s.any (· != x.shape) = false)
    (hf : Fits (aligned b data.shape) (aligned b x.shape)) (h : ∀ v ∈ data.flat, v = 1) :
    ∃ y, (Op.mk (.identity : Class R) s).call x = some y ∧ IsDiagonal data b x y := by
  refine ⟨x, by simp [Op.call, hs], rfl, fun k hk => ?_⟩
  rw [h _ (coefficient_mem hf hk), mul_one]

theorem call_mask {s : Option Shape} {data : Data R} {m : Data Bool} {b : Kind} {x : Data R} (hs : s.any (· != x.shape) = false)
    (hsh : m.shape = data.shape) (hf : Fits (aligned b data.shape) (aligned b x.shape))
    (h : ∀ k, inShape data.shape k = true → data.get k = if m.get k then 0 else 1) :
    ∃ y, (Op.mk (.mask m b : Class R) s).call x = some y ∧ IsDiagonal data b x y := by
  obtain ⟨y, hy, hsy, hg⟩ := apply_fits (f := fun (v : R) (m : Bool) => if m then 0 else v) (b := b) (x := x) (d := m) (by rw [hsh]; exact hf)
  refine ⟨y, by simp [Op.call, hs, hy], hsy, fun k hk => ?_⟩
  have hin : inShape data.shape (aligned b (bindex (aligned b data.shape) (aligned b k))) = true := by
    rw [← inShape_aligned b, aligned_aligned]
    exact bindex_inShape hf (by rw [inShape_aligned]; exact hk)
  rw [hg k hk, coefficient, h _ hin, hsh]
  split <;> simp

theorem mask_acts [Nontrivial R] (m : Data Bool) (b : Kind) (x : Data R) (hc : Compatible m.shape b x.shape) (data : Data R)
    (hsh : m.shape = data.shape) (h : ∀ k, inShape data.shape k = true → data.get k = if m.get k then 0 else 1) :
    ∃ y, (maskOperator m (some b)).call x = some y ∧ IsDiagonal data b x y := by
  have hc' := compatible_default hc
  have hs := shapeOf_compatible hc'
  have hf : Fits (aligned b data.shape) (aligned b x.shape) := hsh ▸ hc.fits
  have hi := inspected (R := R) (cast := id) ⟨Function.injective_id, rfl, rfl⟩ (.bools m)
  have hl : (Values.bools m : Values R).toNums.flat.length = m.flat.length := by simp [Values.toNums, Data.flat]
  have hv : ∀ v ∈ data.flat, ∃ w ∈ m.flat, v = if w then 0 else 1 := by
    intro v hv
    obtain ⟨k, hk, rfl⟩ := mem_flat.1 hv
    exact ⟨m.get k, mem_flat.2 ⟨k, hsh ▸ hk, rfl⟩, h k hk⟩
  have hw : ∀ w ∈ m.flat, ofBool w ∈ (Values.bools m : Values R).toNums.flat := by
    intro w hw
    obtain ⟨k, hk, rfl⟩ := mem_flat.1 hw
    exact mem_flat.2 ⟨k, hk, rfl⟩
  simp only [maskOperator]
  split
  · next e =>
    refine call_identity hs hf fun v hv' => ?_
    obtain ⟨w, hwm, rfl⟩ := hv v hv'
    have := hi.zeros.1 (hl ▸ e) _ (hw w hwm)
    cases w <;> simp_all [ofBool]
  · split
    · next e0 e =>
      refine call_zero hs hf fun v hv' => ?_
      obtain ⟨w, hwm, rfl⟩ := hv v hv'
      have := (hi.ones (List.ne_nil_of_mem (hw w hwm))).1 (hl ▸ e) _ (hw w hwm)
      cases w <;> simp_all [ofBool]
    · rcases default_some m.shape b with e | ⟨hnil, hb, e⟩
      · rw [e] at hs ⊢
        exact call_mask hs hsh hf h
      · rw [e] at hs ⊢
        obtain ⟨y, hy, hd⟩ := call_mask (b := .scalar) hs hsh (by rw [← hsh, hnil]; simp [aligned, Fits]) h
        refine ⟨y, hy, hd.1, fun k hk => ?_⟩
        rw [hd.2 k hk, ← coefficient_default data b, ← hsh, e]

/-- C28: a diagonal operator, whatever it turns into, multiplies each element of its input by the coefficient of this element, for all
the inputs across which the data can be broadcast. -/
theorem C28_diagonal_partial [Nontrivial R] {cast : R → R} (hcast : Exact cast) (data : Values R) (b : Kind) (x : Data R)
    (hc : Compatible data.shape b x.shape) :
    ∃ y, (diagonalOperator cast data (some b)).call x = some y ∧ IsDiagonal data.toNums b x y := by
  have hc' := compatible_default hc
  have hs := shapeOf_compatible hc'
  have hf : Fits (aligned b data.toNums.shape) (aligned b x.shape) := by rw [toNums_shape]; exact hc.fits
  have hi := inspected hcast data
  simp only [diagonalOperator]
  split
  · next e => exact call_zero hs hf (hi.zeros.1 e)
  · next e0 =>
    have hne : data.toNums.flat ≠ [] := by
      intro e
      exact e0 (hi.zeros.2 (by simp [e]))
    split
    · next e => exact call_identity hs hf ((hi.ones hne).1 e)
    · split
      · next e =>
        have hall := (hi.same hne).1 e
        obtain ⟨y, hy, hsy, hg⟩ := apply_fits (f := fun (v : R) (c : R) => v * c) (b := .scalar) (x := x)
          (d := ⟨[], fun _ => data.toNums.flat.headD 0⟩) (by simp [aligned, Fits])
        refine ⟨y, by rw [Op.call, if_neg (by simp only [hs]; simp)]; exact hy, hsy, fun k hk => ?_⟩
        rw [hg k hk, hall _ (coefficient_mem hf hk)]
      · split
        · next e =>
          have hb := (hi.bits hne).1 e
          obtain ⟨y, hy, hd⟩ := mask_acts (⟨data.shape, fun k => data.toNums.get k = 0⟩ : Data Bool) (defaultKind data.shape (some b)) x
            hc' data.toNums (toNums_shape data).symm (fun k hk => by
              rcases hb _ (mem_flat.2 ⟨k, hk, rfl⟩) with h | h <;> simp [h])
          refine ⟨y, hy, hd.1, fun k hk => ?_⟩
          rw [hd.2 k hk, ← toNums_shape, coefficient_default]
        · have hf' := hc'.fits
          rw [← toNums_shape] at hf'
          obtain ⟨y, hy, hsy, hg⟩ := apply_fits (f := fun (v : R) (c : R) => v * c) hf'
          refine ⟨y, ?_, hsy, fun k hk => ?_⟩
          · have hv := (validatein_iff data.toNums.shape _ x.shape).2 hf'
            rw [toNums_shape] at hv hy
            simp [Op.call, hs, hv, hy, toNums_shape]
          · rw [hg k hk, ← coefficient_default]; rfl

/-- C28: without the keyword broadcast, an operator with data of rank zero multiplies all the elements of any input, and otherwise the
inputs have the shape of the data, and each element is multiplied by that of the data at the same place. -/
theorem C28_default_partial [Nontrivial R] {cast : R → R} (hcast : Exact cast) (data : Values R) (x : Data R)
    (hs : data.shape = [] ∨ data.shape = x.shape) :
    ∃ y, (diagonalOperator cast data none).call x = some y ∧ y.shape = x.shape ∧ ∀ k, inShape x.shape k = true →
      y.get k = x.get k * data.toNums.get (if data.shape = [] then [] else k) := by
  by_cases h : data.shape = []
  · have e : diagonalOperator cast data none = diagonalOperator cast data (some .scalar) := by
      simp [diagonalOperator, defaultKind, h]
    obtain ⟨y, hy, hd⟩ := C28_diagonal_partial hcast data .scalar x (by simp [Compatible, aligned, h, Fits])
    refine ⟨y, e ▸ hy, hd.1, fun k hk => ?_⟩
    rw [hd.2 k hk, coefficient, toNums_shape, h]
    simp [aligned, bindex]
  · have e : diagonalOperator cast data none = diagonalOperator cast data (some .disabled) := by
      simp [diagonalOperator, defaultKind, h]
    have hs := hs.resolve_left h
    obtain ⟨y, hy, hd⟩ := C28_diagonal_partial hcast data .disabled x (by simp [Compatible, hs])
    refine ⟨y, e ▸ hy, hd.1, fun k hk => ?_⟩
    rw [hd.2 k hk, coefficient, toNums_shape, hs, bindex_self (by rw [inShape_aligned]; exact hk), aligned_aligned, if_neg (hs ▸ h)]

/-- C28: a mask operator sets to zero the elements of its input for which the mask is true, and keeps the other ones. -/
theorem C28_mask [Nontrivial R] (mask : Data Bool) (b : Kind) (x : Data R) (hc : Compatible mask.shape b x.shape) :
    ∃ y, (maskOperator mask (some b)).call x = some y ∧ y.shape = x.shape ∧ ∀ k, inShape x.shape k = true →
      y.get k = if coefficient mask b k then 0 else x.get k := by
  obtain ⟨y, hy, hd⟩ := mask_acts mask b x hc ⟨mask.shape, fun k => if mask.get k then 0 else 1⟩ rfl (fun _ _ => rfl)
  refine ⟨y, hy, hd.1, fun k hk => ?_⟩
  rw [hd.2 k hk]
  simp only [coefficient]
  split <;> simp_all

/-- C28: the operator is the zero operator if and only if the values are all zero, the identity if and only if they are all one, the
multiplication by a scalar if and only if they are all equal to it, a mask operator if and only if they are zeros and ones, both
being present, and that of the zeros, and a diagonal operator with the same data otherwise. -/
theorem C28_class_partial [Nontrivial R] {cast : R → R} (hcast : Exact cast) (data : Values R) (b : Option Kind) (hne : data.toNums.flat ≠ []) :
    match (diagonalOperator cast data b).cls with
    | .zero => ∀ v ∈ data.toNums.flat, v = 0
    | .identity => ∀ v ∈ data.toNums.flat, v = 1
    | .homothety c => c ≠ 0 ∧ c ≠ 1 ∧ ∀ v ∈ data.toNums.flat, v = c
    | .mask m _ => 0 ∈ data.toNums.flat ∧ 1 ∈ data.toNums.flat ∧ (∀ v ∈ data.toNums.flat, v = 0 ∨ v = 1) ∧ m.shape = data.shape ∧
        ∀ k, m.get k = true ↔ data.toNums.get k = 0
    | .diagonal d _ => d = data.toNums ∧ (∃ v ∈ data.toNums.flat, v ≠ 0 ∧ v ≠ 1) ∧ ∃ v ∈ data.toNums.flat, ∃ w ∈ data.toNums.flat, v ≠ w := by
  have hi := inspected hcast data
  have hhead : data.toNums.flat.headD 0 ∈ data.toNums.flat := by
    obtain ⟨a, l, e⟩ := List.exists_cons_of_ne_nil hne
    simp [e]
  generalize hr : diagonalOperator cast data b = r
  simp only [diagonalOperator] at hr
  split at hr
  · next e => subst hr; exact hi.zeros.1 e
  · next e0 =>
    split at hr
    · next e => subst hr; exact (hi.ones hne).1 e
    · next e1 =>
      split at hr
      · next e =>
        subst hr
        have hall := (hi.same hne).1 e
        refine ⟨fun h => e0 (hi.zeros.2 ?_), fun h => e1 ((hi.ones hne).2 ?_), hall⟩
        · intro v hv; rw [hall v hv, h]
        · intro v hv; rw [hall v hv, h]
      · next es =>
        split at hr
        · next e =>
          have hb := (hi.bits hne).1 e
          have hz : 0 ∈ data.toNums.flat := by
            by_contra h
            exact e1 ((hi.ones hne).2 fun v hv => (hb v hv).resolve_left fun h0 => h (h0 ▸ hv))
          have ho : 1 ∈ data.toNums.flat := by
            by_contra h
            exact e0 (hi.zeros.2 fun v hv => (hb v hv).resolve_right fun h0 => h (h0 ▸ hv))
          have hm : ∃ k s, r = ⟨.mask ⟨data.shape, fun k => data.toNums.get k = 0⟩ k, s⟩ := by
            obtain ⟨k0, hk0, h0⟩ := mem_flat.1 hz
            obtain ⟨k1, hk1, h1⟩ := mem_flat.1 ho
            rw [toNums_shape] at hk0 hk1
            have hi' := inspected (R := R) (cast := id) ⟨Function.injective_id, rfl, rfl⟩
              (.bools ⟨data.shape, fun k => data.toNums.get k = 0⟩)
            have hl : ∀ m : Data Bool, (Values.bools m : Values R).toNums.flat.length = m.flat.length := by
              intro m; simp [Values.toNums, Data.flat]
            simp only [maskOperator] at hr
            rw [if_neg, if_neg] at hr
            · exact ⟨_, _, hr.symm⟩
            · intro h
              have h := (hi'.ones (List.ne_nil_of_mem (mem_flat.2 ⟨k0, hk0, rfl⟩))).1 (by rw [hl]; exact h)
                (ofBool false) (mem_flat.2 ⟨k1, hk1, congrArg ofBool (decide_eq_false (by rw [h1]; exact one_ne_zero))⟩)
              simp [ofBool] at h
            · intro h
              have h := hi'.zeros.1 (by rw [hl]; exact h) (ofBool true) (mem_flat.2 ⟨k0, hk0, congrArg ofBool (decide_eq_true h0)⟩)
              simp [ofBool] at h
          obtain ⟨k, s, rfl⟩ := hm
          exact ⟨hz, ho, hb, rfl, fun k => by simp⟩
        · next e =>
          subst hr
          refine ⟨rfl, ?_, ?_⟩
          · by_contra h
            push Not at h
            exact e ((hi.bits hne).2 fun v hv => by by_cases h0 : v = 0; exact Or.inl h0; exact Or.inr (h v hv h0))
          · by_contra h
            push Not at h
            exact es ((hi.same hne).2 fun v hv => h v hv _ hhead)

end

/-! ### Extended precision -/

/-- The conversion of an extended precision number between 1 and 2 to double precision: the nearest multiple of 2⁻⁵². -/
def toDouble (q : ℚ) : ℚ := ⌊q * 2 ^ 52 + 1 / 2⌋ / 2 ^ 52

/-- The extended precision number. -/
def almostOne : ℚ := 1 + 1 / 2 ^ 60

theorem toDouble_almostOne : toDouble almostOne = 1 := by
  have : ⌊almostOne * 2 ^ 52 + 1 / 2⌋ = 2 ^ 52 := by
    rw [Int.floor_eq_iff]; norm_num [almostOne]
  rw [toDouble, this]; norm_num

/-- C28 fails: a diagonal of extended precision whose value 1 + 2⁻⁶⁰ is not one turns into the identity, since the values are converted
to double precision before they are inspected. -/
theorem C28_fails : ∃ (data : Values ℚ) (x y : Data ℚ), Compatible data.shape .disabled x.shape ∧
    (diagonalOperator toDouble data (some .disabled)).call x = some y ∧ ¬ IsDiagonal data.toNums .disabled x y := by
  refine ⟨.nums ⟨[1], fun _ => almostOne⟩, ⟨[1], fun _ => 2 ^ 60⟩, ⟨[1], fun _ => 2 ^ 60⟩, ?_, ?_, ?_⟩
  · simp [Compatible, Values.shape]
  · have : diagonalOperator toDouble (.nums ⟨[1], fun _ => almostOne⟩) (some .disabled) = ⟨.identity, some [1]⟩ := by
      simp [diagonalOperator, Values.toNums, Data.flat, enum, inspect, toDouble_almostOne, inspectLoop, defaultKind, Values.shape, shapeOf]
    rw [this]
    simp [Op.call]
  · intro h
    have := h.2 [0] (by simp [inShape])
    simp only [coefficient, Values.toNums, almostOne] at this
    norm_num at this

/-! ### Examples -/

/-- The conversion to double precision is exact for the numbers of double precision. -/
theorem exact_id [Ring R] : Exact (id : R → R) := ⟨Function.injective_id, rfl, rfl⟩

/-- A 2 × 3 input. -/
def sampleInput : Data Int := ⟨[2, 3], fun k => 10 * k.getD 0 0 + k.getD 1 0 + 1⟩

example : ((diagonalOperator (id : Int → Int) (.nums ⟨[3], fun k => k.getD 0 0 + 2⟩) (some .leftward)).call sampleInput).map Data.flat =
    some [2, 6, 12, 22, 36, 52] := by decide

example : Compatible [3] .leftward sampleInput.shape := by simp [Compatible, sampleInput, aligned, Fits]

example : Compatible [2, 1] .rightward sampleInput.shape := by simp [Compatible, sampleInput, aligned, Fits]

example : ((diagonalOperator (id : Int → Int) (.nums ⟨[2, 1], fun k => k.getD 0 0⟩) (some .rightward)).call sampleInput).map Data.flat =
    some [0, 0, 0, 11, 12, 13] := by decide

example : (diagonalOperator (id : Int → Int) (.nums ⟨[2, 1], fun k => k.getD 0 0⟩) (some .rightward)).cls matches .mask _ _ := by
  decide

example : (diagonalOperator (id : Int → Int) (.nums ⟨[2, 3], fun _ => 7⟩) none).cls matches .homothety 7 := by decide

example : (diagonalOperator (id : Int → Int) (.bools ⟨[2, 3], fun _ => true⟩) none).cls matches .identity := by decide

example : ((maskOperator ⟨[3], fun k => k == [1]⟩ (some .leftward)).call sampleInput).map Data.flat = some [1, 0, 3, 11, 0, 13] := by
  decide

end Verif.Broadcast
