import Verif.Flags.AssocProps
import Verif.Memory.Model
import Mathlib.Algebra.BigOperators.Group.Finset.Basic

/-
Property C132: the deletion of an operator (`Operator.delete`, src/pyoperators/core.py:250-276).
-/

namespace Verif.Flags.Delete

open Verif.Memory (Gc garbageCollect)

variable {α M : Type} [DecidableEq α]

/-- The attributes `_C`, `_T`, `_H` and `_I` of an object: src/pyoperators/core.py:1004-1011. -/
structure Links (α : Type) where
  C : α
  T : α
  H : α
  I : α
deriving DecidableEq

/-- The objects of the program: their associated operators (`none` if they have not been asked for: the class attribute `_C` is None),
whether they have not been morphed into a `DeletedOperator`, and their memory footprint `nbytes` (`none` if the property raises an exception).
Simplification: the footprints of the other objects do not change during a deletion (those of the composites are computed from
those of their operands, src/pyoperators/core.py:1728-1732). -/
structure World (α : Type) where
  links : α → Option (Links α)
  alive : α → Bool
  bytes : α → Option Nat
  gc : Gc

/-- The tuple of the operators to be deleted: src/pyoperators/core.py:259-271.  `none`: the inverse has no associated operators
(a theorem states that it does not happen). -/
def family (w : World α) (x : α) : Option (List α) :=
  match w.links x with
  | none => some [x]
  | some a =>
    match w.links a.I with
    | none => none
    | some b => some [x, a.C, a.T, a.H, a.I, b.C, b.T, b.H]

/-- The body of the loop, src/pyoperators/core.py:273-276: the footprint is read, the class is set to `DeletedOperator` (whose footprint is
that of `Operator`, 278-284), the attributes are removed and the footprint is given to `garbage_collect`.  The Boolean is false if
an exception is raised. -/
def deleteOne (threshold : Nat) (w : World α) (x : α) : World α × Bool :=
  match w.bytes x with
  | none => (w, false)
  | some n =>
    ({ links := fun z => if z = x then none else w.links z
       alive := fun z => if z = x then false else w.alive z
       bytes := fun z => if z = x then some 0 else w.bytes z
       gc := garbageCollect threshold w.gc (some n) }, true)

/-- The loop, src/pyoperators/core.py:272-276. -/
def deleteAll (threshold : Nat) : World α → List α → World α × Bool
  | w, [] => (w, true)
  | w, x :: xs =>
    match deleteOne threshold w x with
    | (w', true) => deleteAll threshold w' xs
    | (w', false) => (w', false)

/-- `x.delete()`: src/pyoperators/core.py:250-276. -/
def delete (threshold : Nat) (w : World α) (x : α) : World α × Bool :=
  match family w x with
  | none => (w, false)
  | some l => deleteAll threshold w l

/-- The exponent of a `PowerOperator`, kept as it is given (src/pyoperators/nonlinear.py:309): a python number or a numpy scalar or array
with its number of bytes. -/
inductive Exponent where
  | python
  | numpy (nbytes : Nat)

/-- `PowerOperator.nbytes`, src/pyoperators/nonlinear.py:336-338: a python number has no attribute `nbytes` (AttributeError). -/
def powerBytes : Exponent → Option Nat
  | .python => none
  | .numpy n => some n

/-- The exponents of the subclasses `ReciprocalOperator`, `SqrtOperator` and `SquareOperator` are literals:
src/pyoperators/nonlinear.py:347-348, 360-361 and 370-371. -/
def squareExponent : Exponent := .python

/-! ### The loop -/

theorem deleteAll_spec (threshold : Nat) (l : List α) : ∀ w : World α, (∀ x ∈ l, (w.bytes x).isSome) →
    ∃ w', deleteAll threshold w l = (w', true) ∧
      (∀ z, w'.alive z = if z ∈ l then false else w.alive z) ∧
      (∀ z, w'.links z = if z ∈ l then none else w.links z) ∧
      (∀ z, w'.bytes z = if z ∈ l then some 0 else w.bytes z) ∧
      ∃ sizes : List Nat, w'.gc = sizes.foldl (fun g n => garbageCollect threshold g (some n)) w.gc ∧
        sizes.sum = ∑ z ∈ l.toFinset, (w.bytes z).getD 0 := by
  induction l with
  | nil =>
    intro w _
    exact ⟨w, rfl, by simp, by simp, by simp, [], rfl, by simp⟩
  | cons x xs ih =>
    intro w hb
    obtain ⟨n, hn⟩ := Option.isSome_iff_exists.mp (hb x (by simp))
    let w1 : World α :=
      { links := fun z => if z = x then none else w.links z
        alive := fun z => if z = x then false else w.alive z
        bytes := fun z => if z = x then some 0 else w.bytes z
        gc := garbageCollect threshold w.gc (some n) }
    have h1 : deleteOne threshold w x = (w1, true) := by simp only [deleteOne, hn, w1]
    obtain ⟨w', e, ha, hl, hy, sizes, hg, hs⟩ := ih w1 (by
      intro z hz
      show (if z = x then some 0 else w.bytes z).isSome
      split
      · rfl
      · exact hb z (by simp [hz]))
    refine ⟨w', by rw [deleteAll, h1]; exact e, ?_, ?_, ?_, n :: sizes, hg, ?_⟩
    · intro z; rw [ha]; by_cases h : z = x <;> by_cases h' : z ∈ xs <;> simp [h, h', w1]
    · intro z; rw [hl]; by_cases h : z = x <;> by_cases h' : z ∈ xs <;> simp [h, h', w1]
    · intro z; rw [hy]; by_cases h : z = x <;> by_cases h' : z ∈ xs <;> simp [h, h', w1]
    · rw [List.sum_cons, hs, List.toFinset_cons]
      have e1 : insert x xs.toFinset = insert x (xs.toFinset.erase x) := by
        ext z; by_cases h : z = x <;> simp [h]
      rw [e1, Finset.sum_insert (Finset.notMem_erase _ _), hn, Option.getD_some]
      congr 1
      rw [← Finset.sum_erase (a := x) xs.toFinset (f := fun z => (w1.bytes z).getD 0) (by simp [w1])]
      apply Finset.sum_congr rfl
      intro z hz
      have : z ≠ x := (Finset.mem_erase.mp hz).1
      simp [w1, this]

/-! ### The associated operators -/

/-- The references between the objects `e r` are those that have been set by `_generate_associated_operators`. -/
def Linked (k : Config M) (conj : M → M) (e : Role → α) (w : World α) : Prop :=
  ∀ q y, (k.generate conj).path q k.me = some y →
    w.links (e y.id) = ((k.generate conj) y.id).map (fun a => ⟨e a.C.id, e a.T.id, e a.H.id, e a.I.id⟩)

theorem attrs_of (k : Config M) (conj : M → M) (hn : k.NoSame) (hreg : regular k.flags = true) (r : Role) :
    ∃ a, (k.generate conj) (ids k.flags r) = some a ∧ a.C.id = ids k.flags (r.attr .C) ∧ a.T.id = ids k.flags (r.attr .T) ∧
      a.H.id = ids k.flags (r.attr .H) ∧ a.I.id = ids k.flags (r.attr .I) := by
  have h1 := table' k.flags hreg r
  have e : (fun r => ((k.vars conj).get r).id) = ids k.flags := funext (id_vars conj hn hreg)
  rw [← e, ← writes_ids, e] at h1
  change ((k.generate conj) (ids k.flags r)).map Attrs.ids = _ at h1
  cases hg : (k.generate conj) (ids k.flags r) with
  | none => rw [hg] at h1; simp at h1
  | some a =>
    rw [hg] at h1
    simp only [Option.map_some, Option.some.injEq, Attrs.ids, Prod.mk.injEq] at h1
    exact ⟨a, rfl, h1⟩

/-- Each role is reached by a chain of attributes. -/
def chain : Role → List Attr
  | .self => [] | .C => [.C] | .T => [.T] | .H => [.H] | .I => [.I] | .IC => [.I, .C] | .IT => [.I, .T] | .IH => [.I, .H]

theorem reached (k : Config M) (conj : M → M) (hn : k.NoSame) (hreg : regular k.flags = true) (r : Role) :
    ∃ q y, (k.generate conj).path q k.me = some y ∧ y.id = ids k.flags r := by
  have h := path_id k conj hn hreg (chain r) k.me .self rfl
  have e : (chain r).foldl Role.attr .self = r := by cases r <;> rfl
  rw [e] at h
  cases hp : (k.generate conj).path (chain r) k.me with
  | none => rw [hp] at h; simp at h
  | some y => rw [hp] at h; exact ⟨_, y, hp, by simpa using h⟩

theorem role_of (k : Config M) (conj : M → M) (hn : k.NoSame) (hreg : regular k.flags = true) (q : List Attr) (y : Ob M)
    (h : (k.generate conj).path q k.me = some y) : ∃ r, y.id = ids k.flags r := by
  have := path_id k conj hn hreg q k.me .self rfl
  rw [h] at this
  exact ⟨_, by simpa using this⟩

omit [DecidableEq α] in
theorem family_eq (k : Config M) (conj : M → M) (hn : k.NoSame) (hreg : regular k.flags = true) (e : Role → α) (w : World α)
    (hl : Linked k conj e w) (p : List Attr) (x : Ob M) (hx : (k.generate conj).path p k.me = some x) :
    ∃ l, family w (e x.id) = some l ∧ ∀ z, z ∈ l ↔ ∃ q y, (k.generate conj).path q k.me = some y ∧ z = e y.id := by
  obtain ⟨r, hr⟩ := role_of k conj hn hreg p x hx
  obtain ⟨a, ha, hC, hT, hH, hI⟩ := attrs_of k conj hn hreg r
  obtain ⟨b, hb, hIC, hIT, hIH, _⟩ := attrs_of k conj hn hreg (r.attr .I)
  obtain ⟨q, y, hy, hyr⟩ := reached k conj hn hreg (r.attr .I)
  have h1 := hl p x hx
  have h2 := hl q y hy
  rw [hr, ha] at h1
  rw [hyr, hb] at h2
  simp only [Option.map_some] at h1 h2
  refine ⟨[r, r.attr .C, r.attr .T, r.attr .H, r.attr .I, (r.attr .I).attr .C, (r.attr .I).attr .T, (r.attr .I).attr .H].map
    (fun s => e (ids k.flags s)), ?_, ?_⟩
  · rw [hr]
    simp only [family, h1, hI, h2, hC, hT, hH, hIC, hIT, hIH, List.map_cons, List.map_nil]
  · intro z
    have all : ∀ s : Role, s ∈ [r, r.attr .C, r.attr .T, r.attr .H, r.attr .I, (r.attr .I).attr .C, (r.attr .I).attr .T,
        (r.attr .I).attr .H] := by
      intro s; cases r <;> cases s <;> decide
    constructor
    · intro hz
      obtain ⟨s, _, rfl⟩ := List.mem_map.mp hz
      obtain ⟨q, y, hy, hys⟩ := reached k conj hn hreg s
      exact ⟨q, y, hy, by rw [hys]⟩
    · rintro ⟨q, y, hy, rfl⟩
      obtain ⟨s, hs⟩ := role_of k conj hn hreg q y hy
      exact List.mem_map.mpr ⟨s, all s, by rw [hs]⟩

/-- C132, partial: from whichever of its associated operators it is asked for, the deletion deletes the operator and all the operators
that can be reached from it by chains of attributes, and no other; the deleted ones keep no reference and have no footprint any more, the other operators keep their associated operators; and the numbers of bytes
given to the garbage collection add up to the footprint of the deleted objects, each of them being counted once.
Missing from the full property: the operators whose footprint raises an exception (`C132_power_fails`), the complex operators that are
orthogonal and unitary (`C132_unitary_fails`); the other flags that are not regular (complex hermitian operators) and the rules that return their
operator are not proved. -/
theorem C132_family_partial (threshold : Nat) (k : Config M) (conj : M → M) (hn : k.NoSame) (hreg : regular k.flags = true)
    (e : Role → α) (w : World α) (hl : Linked k conj e w)
    (hb : ∀ q y, (k.generate conj).path q k.me = some y → (w.bytes (e y.id)).isSome)
    (p : List Attr) (x : Ob M) (hx : (k.generate conj).path p k.me = some x) :
    ∃ w', delete threshold w (e x.id) = (w', true) ∧
      (∀ z, w'.alive z = true ↔ w.alive z = true ∧ ∀ q y, (k.generate conj).path q k.me = some y → z ≠ e y.id) ∧
      (∀ z, (∀ q y, (k.generate conj).path q k.me = some y → z ≠ e y.id) → w'.links z = w.links z ∧ w'.bytes z = w.bytes z) ∧
      (∀ q y, (k.generate conj).path q k.me = some y → w'.links (e y.id) = none ∧ w'.bytes (e y.id) = some 0) ∧
      ∃ sizes : List Nat, w'.gc = sizes.foldl (fun g n => garbageCollect threshold g (some n)) w.gc ∧
        ∀ s : Finset α, (∀ z, z ∈ s ↔ ∃ q y, (k.generate conj).path q k.me = some y ∧ z = e y.id) →
          sizes.sum = ∑ z ∈ s, (w.bytes z).getD 0 := by
  obtain ⟨l, hf, hm⟩ := family_eq k conj hn hreg e w hl p x hx
  obtain ⟨w', hd, ha, hk, hy, sizes, hg, hs⟩ := deleteAll_spec threshold l w (by
    intro z hz
    obtain ⟨q, y, hq, rfl⟩ := (hm z).mp hz
    exact hb q y hq)
  have hout : ∀ z, (∀ q y, (k.generate conj).path q k.me = some y → z ≠ e y.id) ↔ z ∉ l := by
    intro z
    rw [hm z]
    constructor
    · rintro h ⟨q, y, hq, rfl⟩; exact h q y hq rfl
    · intro h q y hq hz; exact h ⟨q, y, hq, hz⟩
  refine ⟨w', by simp only [delete, hf, hd], ?_, ?_, ?_, sizes, hg, ?_⟩
  · intro z
    rw [hout, ha]
    by_cases h : z ∈ l <;> simp [h]
  · intro z hz
    rw [hout] at hz
    rw [hk, hy]
    simp [hz]
  · intro q y hq
    have hz : e y.id ∈ l := (hm _).mpr ⟨q, y, hq, rfl⟩
    rw [hk, hy]
    simp [hz]
  · intro s hs'
    rw [hs]
    congr 1
    ext z
    rw [List.mem_toFinset, hm, hs']

theorem collect_below (threshold : Nat) (ht : 0 < threshold) (sizes : List Nat) :
    ∀ g : Gc, g.counter < threshold → (sizes.foldl (fun g n => garbageCollect threshold g (some n)) g).counter < threshold := by
  induction sizes with
  | nil => intro g h; exact h
  | cons n ns ih =>
    intro g _
    apply ih
    unfold garbageCollect
    dsimp only
    split
    · exact ht
    · rename_i h; exact Nat.lt_of_not_le h

/-- C132, partial: to delete again the operator or any of the operators that were associated to it is harmless: nothing changes, and no byte
is counted twice.  Missing: as for `C132_family_partial`. -/
theorem C132_again_partial (threshold : Nat) (ht : 0 < threshold) (k : Config M) (conj : M → M) (hn : k.NoSame)
    (hreg : regular k.flags = true) (e : Role → α) (w : World α) (hl : Linked k conj e w) (hc : w.gc.counter < threshold)
    (hb : ∀ q y, (k.generate conj).path q k.me = some y → (w.bytes (e y.id)).isSome)
    (p q : List Attr) (x y : Ob M) (hx : (k.generate conj).path p k.me = some x) (hy : (k.generate conj).path q k.me = some y) :
    delete threshold (delete threshold w (e x.id)).1 (e y.id) = ((delete threshold w (e x.id)).1, true) := by
  obtain ⟨l, hf, hm⟩ := family_eq k conj hn hreg e w hl p x hx
  obtain ⟨w', hd, ha, hk, hz, sizes, hg, _⟩ := deleteAll_spec threshold l w (by
    intro z hz
    obtain ⟨q, y, hq, rfl⟩ := (hm z).mp hz
    exact hb q y hq)
  have e1 : delete threshold w (e x.id) = (w', true) := by simp only [delete, hf, hd]
  have hmem : e y.id ∈ l := (hm _).mpr ⟨q, y, hy, rfl⟩
  have hlk : w'.links (e y.id) = none := by rw [hk]; simp [hmem]
  have hby : w'.bytes (e y.id) = some 0 := by rw [hz]; simp [hmem]
  have hal : w'.alive (e y.id) = false := by rw [ha]; simp [hmem]
  have hgc : garbageCollect threshold w'.gc (some 0) = w'.gc := by
    have := collect_below threshold ht sizes w.gc hc
    rw [← hg] at this
    unfold garbageCollect
    simp only [Nat.add_zero]
    rw [if_neg (by omega)]
  rw [e1]
  have hfam : family w' (e y.id) = some [e y.id] := by simp only [family, hlk]
  simp only [delete, hfam, deleteAll, deleteOne, hby, hgc, Prod.mk.injEq, and_true]
  obtain ⟨lk, al, by', g⟩ := w'
  simp only [World.mk.injEq, and_true] at *
  refine ⟨funext fun z => ?_, funext fun z => ?_, funext fun z => ?_⟩
  · split
    · rename_i h; rw [h, hlk]
    · rfl
  · split
    · rename_i h; rw [h, hal]
    · rfl
  · split
    · rename_i h; rw [h, hby]
    · rfl

/-- C132: an operator whose associated operators have not been asked for is deleted alone, and its footprint is counted. -/
theorem C132_alone (threshold : Nat) (w : World α) (x : α) (n : Nat) (hl : w.links x = none) (hb : w.bytes x = some n) :
    ∃ w', delete threshold w x = (w', true) ∧ (∀ z, w'.alive z = true ↔ w.alive z = true ∧ z ≠ x) ∧
      (∀ z, z ≠ x → w'.links z = w.links z ∧ w'.bytes z = w.bytes z) ∧ w'.gc = garbageCollect threshold w.gc (some n) := by
  simp only [delete, family, hl, deleteAll, deleteOne, hb]
  refine ⟨_, rfl, ?_, ?_, rfl⟩
  · intro z; by_cases h : z = x <;> simp [h]
  · intro z h; simp [h]

/-! ### Examples -/

/-- The world made of the objects of an operator, with the given footprints, and of another operator. -/
def worldOf (k : Config Int) (bytes : Role → Option Nat) : World (Option Role) where
  links := fun z => z.bind fun r => ((k.generate id) r).map fun a => ⟨some a.C.id, some a.T.id, some a.H.id, some a.I.id⟩
  alive := fun _ => true
  bytes := fun z => match z with
    | some r => bytes r
    | none => some 1000
  gc := ⟨0, 0⟩

/-- A complex symmetric operator. -/
def symmetricConfig : Config Int := { value := 3, flags := initFlags true { symmetric := true } }

/-- Instance of `C132_family_partial` and of `C132_again_partial`: the deletion of the inverse of the conjugate of a complex symmetric
operator, whose transpose is itself. -/
example : symmetricConfig.NoSame ∧ regular symmetricConfig.flags = true ∧
    Linked symmetricConfig id some (worldOf symmetricConfig fun _ => some 8) ∧
    (∀ q y, (symmetricConfig.generate id).path q symmetricConfig.me = some y →
      ((worldOf symmetricConfig fun _ => some 8).bytes (some y.id)).isSome) ∧
    ∃ x, (symmetricConfig.generate id).path [.C, .I] symmetricConfig.me = some x ∧ x.id = .IC ∧
      (delete 100 (worldOf symmetricConfig fun _ => some 8) (some x.id)).1.gc = ⟨32, 0⟩ ∧
      (delete 100 (worldOf symmetricConfig fun _ => some 8) (some x.id)).1.alive (some .self) = false ∧
      (delete 100 (worldOf symmetricConfig fun _ => some 8) (some x.id)).1.alive none = true :=
  ⟨by constructor <;> simp [symmetricConfig], by decide, fun _ _ _ => rfl, fun _ _ _ => rfl, _, rfl, by decide, by decide +kernel,
    by decide +kernel, by decide +kernel⟩

/-- Instance of `C132_alone`. -/
example : (worldOf symmetricConfig fun _ => some 8).links none = none ∧ (worldOf symmetricConfig fun _ => some 8).bytes none = some 1000 ∧
    (delete 100 (worldOf symmetricConfig fun _ => some 8) none).1.gc = ⟨0, 1⟩ := by decide +kernel

/-- C132 is violated by the code: `SquareOperator().delete()` raises an exception and deletes nothing, because a python number has no
attribute `nbytes`. -/
theorem C132_power_fails :
    ∃ (w : World Bool) (x : Bool), w.links x = none ∧ w.alive x = true ∧ w.bytes x = powerBytes squareExponent ∧
      (delete 100 w x).2 = false ∧ (delete 100 w x).1.alive x = true :=
  ⟨⟨fun _ => none, fun _ => true, fun b => if b then powerBytes squareExponent else some 8, ⟨0, 0⟩⟩, true,
    rfl, rfl, rfl, rfl, rfl⟩

/-- C132 is violated by the code: a complex operator declared orthogonal and unitary; the deletion leaves the operator `A.T.I`. -/
theorem C132_unitary_fails :
    ∃ k : Config Int, k.flags = initFlags true { orthogonal := true, unitary := true } ∧ k.NoSame ∧
      Linked k id some (worldOf k fun _ => some 8) ∧ ∃ y, (k.generate id).path [.T, .I] k.me = some y ∧
      (delete 100 (worldOf k fun _ => some 8) (some .self)).2 = true ∧
      (delete 100 (worldOf k fun _ => some 8) (some .self)).1.alive (some y.id) = true :=
  ⟨{ value := 1, flags := initFlags true { orthogonal := true, unitary := true } }, rfl, by constructor <;> simp, fun _ _ _ => rfl,
    _, rfl, by decide +kernel, by decide +kernel⟩

end Verif.Flags.Delete
