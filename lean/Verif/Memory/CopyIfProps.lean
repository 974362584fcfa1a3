import Verif.Memory.CopyIf
import Verif.Memory.Props

/-
Properties C08 and C51.
-/

namespace Verif.Memory

/-- Specification: the array fulfils the requirements of an operator. -/
def Fulfils (cfg : Config) (b : Buf) (aligned contiguous : Bool) : Prop :=
  (aligned = true → cfg.alignment ∣ b.addr) ∧ (contiguous = true → b.contiguous = true)

theorem not_needsCopy {cfg : Config} {v : Buf} {aligned contiguous : Bool}
    (h : needsCopy cfg v aligned contiguous = false) : Fulfils cfg v aligned contiguous := by
  unfold needsCopy at h
  simp only [Bool.or_eq_false_iff, bne_eq_false_iff_eq, Bool.and_eq_false_iff, Bool.not_eq_false'] at h
  constructor
  · intro ha
    rw [if_pos ha] at h
    exact Nat.dvd_of_mod_eq_zero h.1
  · intro hc
    rcases h.2 with h2 | h2
    · rw [hc] at h2; simp at h2
    · exact h2

theorem view_addr {b v : Buf} {shape : List Nat} {itemsize : Nat} (h : view b shape itemsize = .ok v) :
    v.addr = b.addr ∧ (b.contiguous = true → v.contiguous = true) := by
  unfold view at h
  split at h
  · split at h
    · obtain rfl := Except.ok.inj h; exact ⟨rfl, fun _ => rfl⟩
    · simp at h
  · split at h
    · obtain rfl := Except.ok.inj h; exact ⟨rfl, fun h => h⟩
    · simp at h

/-- C08, partial: if all the buffers of the pool are aligned and contiguous, the array given to the body has the shape
and item size of the input, fulfils the requirements and holds the values of the input; the body is entered; and if the
body returns normally, the input array finally holds the values that the body left in its array.
Missing from the full property: pools that hold arrays that are not aligned or not contiguous, for which the
requirements are not met (see `C08_copy_if_alignment_fails` and `C08_copy_if_contiguity_fails`). -/
theorem C08_copy_if_partial {V : Type} (cfg : Config) (ha : 0 < cfg.alignment) (v : Buf) (aligned contiguous : Bool)
    (address : Nat) (body : CBody V) (s : St V) (hne : product v.shape * v.itemsize ≠ 0)
    (hpool : ∀ b ∈ s.pool, cfg.alignment ∣ b.addr ∧ b.contiguous = true) :
    ∃ b s1, b.shape = v.shape ∧ b.itemsize = v.itemsize ∧ Fulfils cfg b aligned contiguous ∧
      s1.mem b.addr = s.mem v.addr ∧
      (∀ a, a ≠ b.addr → s1.mem a = s.mem a) ∧
      ((body b s1).1 ≠ none → copyIf cfg v aligned contiguous address body s = body b s1) ∧
      ((body b s1).1 = none →
        (copyIf cfg v aligned contiguous address body s).2.mem v.addr = (body b s1).2.mem b.addr ∧
        (∀ a, a ≠ v.addr → (copyIf cfg v aligned contiguous address body s).2.mem a = (body b s1).2.mem a)) := by
  by_cases hn : needsCopy cfg v aligned contiguous = true
  · obtain ⟨buf, hview, hs, hi, haddr, _⟩ :=
      C06_view_succeeds cfg s.pool ⟨v.shape, v.itemsize, false, false⟩ address ha hne
    simp only at hs hi haddr hview
    have hent : cfg.alignment ∣ (extract cfg s.pool ⟨v.shape, v.itemsize, false, false⟩ address).1.addr ∧
        (extract cfg s.pool ⟨v.shape, v.itemsize, false, false⟩ address).1.contiguous = true := by
      unfold extract
      split
      · rename_i res hres
        obtain ⟨l, r, hp, _⟩ := popFirst_some (x := res.1) (q := res.2) hres
        exact hpool _ (by rw [hp]; simp)
      · have := C04_empty_array cfg v.shape v.itemsize address ha hne
        exact ⟨Nat.dvd_of_mod_eq_zero this.1, this.2.1⟩
    refine ⟨buf, ⟨assign s.mem buf.addr v.addr,
      (extract cfg s.pool ⟨v.shape, v.itemsize, false, false⟩ address).2⟩, hs, hi, ?_, by simp [assign], ?_, ?_, ?_⟩
    · exact ⟨fun _ => by rw [haddr]; exact hent.1, fun _ => (view_addr hview).2 hent.2⟩
    · intro a hna; simp [assign, hna]
    · intro hb
      unfold copyIf
      rw [if_pos hn]
      simp only [hview]
      split <;> rename_i e
      · rw [e]
      · rw [e] at hb; simp at hb
    · intro hb
      unfold copyIf
      rw [if_pos hn]
      simp only [hview]
      split <;> rename_i e
      · rw [e] at hb; simp at hb
      · rw [e]
        split
        · exact ⟨by simp [assign], fun a hna => by simp [assign, hna]⟩
        · exact ⟨by simp [assign], fun a hna => by simp [assign, hna]⟩
  · have hn' : needsCopy cfg v aligned contiguous = false := by simpa using hn
    have heq : copyIf cfg v aligned contiguous address body s = body v s := by
      unfold copyIf; rw [if_neg hn]
    refine ⟨v, s, rfl, rfl, not_needsCopy hn', rfl, fun _ _ => rfl, fun _ => heq, fun _ => ?_⟩
    rw [heq]
    exact ⟨rfl, fun _ _ => rfl⟩

example := C08_copy_if_partial (V := List Nat) ⟨32, 6, 5⟩ (by decide) ⟨65, [4], 8, true⟩ true true 1000
  (fun b s => (none, { s with mem := fun a => if a = b.addr then [7] else s.mem a }))
  ⟨fun _ => [1, 2], [⟨64, [32], 1, true⟩]⟩ (by decide) (by decide)

/-- The array that `copy_if` gives to its body. -/
def copyIfArray (cfg : Config) (v : Buf) (aligned contiguous : Bool) (address : Nat) (p : Pool) : Nat × Bool :=
  let r := copyIf (V := Nat × Bool) cfg v aligned contiguous address
    (fun b s => (some .bodyError, { s with mem := fun _ => (b.addr, b.contiguous) })) ⟨fun _ => (0, false), p⟩
  r.2.mem 0

/-- C08 is violated by the code: an aligned array is requested for an array that is not aligned, and the array given to
the body is another array that is not aligned, because `copy_if` does not pass its requirements on to the pool. The pool
of this example is the one seen by the operands when the user's output array, not aligned, has been lent to the pool. -/
theorem C08_copy_if_alignment_fails :
    ∃ (cfg : Config) (v out : Buf) (p : Pool), add [] out = .ok p ∧ PoolInv p ∧ 0 < cfg.alignment ∧
      out.addr ≠ v.addr ∧ ¬ cfg.alignment ∣ (copyIfArray cfg v true true 1000 p).1 :=
  ⟨⟨32, 6, 5⟩, ⟨65, [4], 8, true⟩, ⟨1001, [4], 8, true⟩, [⟨1001, [32], 1, true⟩], by decide,
    ⟨by simp, by simp⟩, by decide, by decide, by decide⟩

/-- C08 is violated by the code: a contiguous array is requested and a non-contiguous one is given. -/
theorem C08_copy_if_contiguity_fails :
    ∃ (cfg : Config) (v out : Buf) (p : Pool), add [] out = .ok p ∧ PoolInv p ∧ 0 < cfg.alignment ∧
      out.addr ≠ v.addr ∧ (copyIfArray cfg v true true 1000 p).2 = false :=
  ⟨⟨32, 6, 5⟩, ⟨64, [4, 2], 8, false⟩, ⟨1024, [4, 2], 8, false⟩, [⟨1024, [4, 2], 8, false⟩], by decide,
    ⟨by simp, by simp⟩, by decide, by decide, by decide⟩

/-! ### C51 -/

/-- An operand: it replaces the contents of its output array by a function of those of its input array, and leaves the
pool as it found it. It also works in place. -/
def pureDirect {V : Type} (f : V → V) : Buf → CBody V := fun i o s =>
  (none, { s with mem := fun a => if a = o.addr then f (s.mem i.addr) else s.mem a })

/-- C51 is violated by the code: when a block of a block diagonal (or block slice) operator is applied in place on a part
of the array that must be copied, the result is overwritten on exit by the copy of the input: the array is unchanged. -/
theorem C51_block_in_place_fails :
    ∃ (cfg : Config) (v : Buf) (f : Nat → Nat) (s : St Nat),
      (blockStep cfg v v false true false true 1000 2000 (pureDirect f) s).1 = none ∧
      (blockStep cfg v v false true false true 1000 2000 (pureDirect f) s).2.mem v.addr = s.mem v.addr ∧
      f (s.mem v.addr) ≠ s.mem v.addr :=
  ⟨⟨32, 6, 5⟩, ⟨64, [4, 2], 8, false⟩, fun x => x + 1, ⟨fun _ => 5, []⟩, by decide, by decide, by decide⟩

/-- What a step of a block operator does when it is not applied in place and the pool holds neither of the two arrays:
the output part gets the image of the input part and the input part is unchanged. `hfresh` says that the allocator does
not return the address of an array that is in use. -/
theorem C51_block_out_of_place_partial {V : Type} (cfg : Config) (ha : 0 < cfg.alignment) (i o : Buf)
    (ai ci ao co : Bool) (a1 a2 : Nat) (f : V → V) (s : St V) (hp : PoolInv s.pool)
    (hio : i.addr ≠ o.addr) (hi : Absent s.pool i) (ho : Absent s.pool o)
    (hni : product i.shape * i.itemsize ≠ 0) (hno : product o.shape * o.itemsize ≠ 0)
    (hf1 : ∀ a ∈ i.addr :: o.addr :: s.pool.map Buf.addr, emptyAddr cfg.alignment a1 ≠ a)
    (hf2 : ∀ a ∈ emptyAddr cfg.alignment a1 :: i.addr :: o.addr :: s.pool.map Buf.addr,
      emptyAddr cfg.alignment a2 ≠ a) :
    (blockStep cfg i o ai ci ao co a1 a2 (pureDirect f) s).1 = none ∧
    (blockStep cfg i o ai ci ao co a1 a2 (pureDirect f) s).2.mem o.addr = f (s.mem i.addr) ∧
    (blockStep cfg i o ai ci ao co a1 a2 (pureDirect f) s).2.mem i.addr = s.mem i.addr := by
  -- the buffer obtained by an extraction is different from what is alive
  have key : ∀ (p : Pool) (v : Buf) (a : Nat), PoolInv p → product v.shape * v.itemsize ≠ 0 →
      (∀ x ∈ p, emptyAddr cfg.alignment a ≠ x.addr) →
      ∃ buf, view (extract cfg p ⟨v.shape, v.itemsize, false, false⟩ a).1 v.shape v.itemsize = .ok buf ∧
        buf.addr = (extract cfg p ⟨v.shape, v.itemsize, false, false⟩ a).1.addr ∧
        Absent (extract cfg p ⟨v.shape, v.itemsize, false, false⟩ a).2 buf ∧
        (∀ w, Absent p w → emptyAddr cfg.alignment a ≠ w.addr → buf.addr ≠ w.addr) ∧
        (extract cfg p ⟨v.shape, v.itemsize, false, false⟩ a).2.Sublist p ∧
        (buf.addr = emptyAddr cfg.alignment a ∨ ∃ x ∈ p, x.addr = buf.addr) := by
    intro p v a hpi hne hfresh
    obtain ⟨buf, hview, _, _, haddr, _⟩ := C06_view_succeeds cfg p ⟨v.shape, v.itemsize, false, false⟩ a ha hne
    have hex := C06_extract_exclusive cfg p ⟨v.shape, v.itemsize, false, false⟩ a hpi
    have hcase : (extract cfg p ⟨v.shape, v.itemsize, false, false⟩ a).1 ∈ p ∧
          (extract cfg p ⟨v.shape, v.itemsize, false, false⟩ a).2.Sublist p ∨
        (extract cfg p ⟨v.shape, v.itemsize, false, false⟩ a).1.addr = emptyAddr cfg.alignment a ∧
          (extract cfg p ⟨v.shape, v.itemsize, false, false⟩ a).2 = p := by
      unfold extract
      split
      · rename_i res hres
        left
        obtain ⟨l, r, hp', _⟩ := popFirst_some (x := res.1) (q := res.2) hres
        exact ⟨by rw [hp']; simp, popFirst_sublist (x := res.1) (q := res.2) hres⟩
      · right
        simp [empty, hne]
    refine ⟨buf, hview, haddr, ?_, ?_, ?_, ?_⟩
    · intro x hx
      rw [haddr]
      rcases hcase with hc | hc
      · rcases hex with hex | hex
        · exact hex.2 x hx
        · exfalso
          have hc2 := hex.1
          have hmem := hc.1
          unfold extract at hc2 hmem
          split at hc2
          · rename_i res hres
            have hl := (popFirst_perm (x := res.1) (q := res.2) hres).length_eq
            rw [hc2] at hl
            simp at hl
          · rename_i hn
            simp only [hn] at hmem
            exact hfresh _ hmem (by simp [empty, hne])
      · rw [hc.1]
        intro he
        rw [hc.2] at hx
        exact hfresh x hx he.symm
    · intro w hw hfw
      rw [haddr]
      rcases hcase with hc | hc
      · exact hw _ hc.1
      · rw [hc.1]; exact hfw
    · rcases hcase with hc | hc
      · exact hc.2
      · rw [hc.2]
    · rcases hcase with hc | hc
      · exact Or.inr ⟨_, hc.1, haddr.symm⟩
      · exact Or.inl (haddr.trans hc.1)
  have hpm : ∀ x ∈ s.pool, x.addr ∈ s.pool.map Buf.addr := fun x hx => List.mem_map_of_mem hx
  unfold blockStep
  by_cases hn1 : needsCopy cfg i ai ci = true
  · obtain ⟨b1, hv1, haddr1, hab1, hw1, hsub1, hor1⟩ := key s.pool i a1 hp hni
      (fun x hx => hf1 _ (by simp [hpm x hx]))
    have hb1i : b1.addr ≠ i.addr := hw1 i hi (hf1 _ (by simp))
    have hb1o : b1.addr ≠ o.addr := hw1 o ho (hf1 _ (by simp))
    by_cases hn2 : needsCopy cfg o ao co = true
    · generalize hp1 : (extract cfg s.pool ⟨i.shape, i.itemsize, false, false⟩ a1).2 = p1 at *
      have hp1i : PoolInv p1 := hp.sublist hsub1
      obtain ⟨b2, hv2, haddr2, hab2, hw2, hsub2, hor2⟩ := key p1 o a2 hp1i hno
        (fun x hx => hf2 _ (by simp [hpm x (hsub1.subset hx)]))
      have hf21 : emptyAddr cfg.alignment a2 ≠ b1.addr := by
        rcases hor1 with h | ⟨x, hx, h⟩
        · rw [h]; exact hf2 _ (by simp)
        · rw [← h]; exact hf2 _ (by simp [hpm x hx])
      have hb21 : b2.addr ≠ b1.addr := hw2 b1 hab1 hf21
      have hb2o : b2.addr ≠ o.addr := hw2 o (fun x hx => ho x (hsub1.subset hx)) (hf2 _ (by simp))
      have hb2i : b2.addr ≠ i.addr := hw2 i (fun x hx => hi x (hsub1.subset hx)) (hf2 _ (by simp))
      have hadd2 := add_succeeds (p := (extract cfg p1 ⟨o.shape, o.itemsize, false, false⟩ a2).2)
        (v := (extract cfg p1 ⟨o.shape, o.itemsize, false, false⟩ a2).1)
        (fun x hx => by rw [← haddr2]; exact hab2 x hx)
      have hadd1 := add_succeeds
        (p := insertSorted (flat (extract cfg p1 ⟨o.shape, o.itemsize, false, false⟩ a2).1)
          (extract cfg p1 ⟨o.shape, o.itemsize, false, false⟩ a2).2)
        (v := (extract cfg s.pool ⟨i.shape, i.itemsize, false, false⟩ a1).1)
        (fun x hx => by
          rw [← haddr1]
          rcases List.mem_cons.mp ((insertSorted_perm _ _).mem_iff.mp hx) with rfl | hx
          · rw [flat_addr, ← haddr2]; exact hb21
          · exact hab1 x (hsub2.subset hx))
      unfold copyIf
      simp only [hn1, hn2, if_true, hv1, hp1, copyIf, hv2, pureDirect, hadd2, hadd1]
      refine ⟨trivial, ?_, ?_⟩
      · simp [assign, hio.symm, hb21.symm, Ne.symm hb1o, hb2o.symm]
      · simp [assign, hio, hb1i, hb1o, hb21.symm]
    · have hadd1 := add_succeeds
        (p := (extract cfg s.pool ⟨i.shape, i.itemsize, false, false⟩ a1).2)
        (v := (extract cfg s.pool ⟨i.shape, i.itemsize, false, false⟩ a1).1)
        (fun x hx => by rw [← haddr1]; exact hab1 x hx)
      unfold copyIf
      simp only [hn1, if_true, hv1, copyIf, hn2, Bool.false_eq_true, if_false, pureDirect, hadd1]
      refine ⟨trivial, ?_, ?_⟩
      · simp [assign, hio.symm]
      · simp [assign, hb1o]
  · by_cases hn2 : needsCopy cfg o ao co = true
    · obtain ⟨b2, hv2, haddr2, hab2, hw2, hsub2, hor2⟩ := key s.pool o a2 hp hno
        (fun x hx => hf2 _ (by simp [hpm x hx]))
      have hb2i : b2.addr ≠ i.addr := hw2 i hi (hf2 _ (by simp))
      have hadd2 := add_succeeds (p := (extract cfg s.pool ⟨o.shape, o.itemsize, false, false⟩ a2).2)
        (v := (extract cfg s.pool ⟨o.shape, o.itemsize, false, false⟩ a2).1)
        (fun x hx => by rw [← haddr2]; exact hab2 x hx)
      unfold copyIf
      simp only [hn1, hn2, if_true, Bool.false_eq_true, if_false, copyIf, hv2, pureDirect, hadd2]
      refine ⟨trivial, ?_, ?_⟩
      · simp [assign, hb2i.symm]
      · simp [assign, hio, hb2i.symm]
    · unfold copyIf
      simp only [hn1, Bool.false_eq_true, if_false, copyIf, hn2, pureDirect]
      refine ⟨trivial, by simp, by simp [hio]⟩

example := C51_block_out_of_place_partial (V := Nat) ⟨32, 6, 5⟩ (by decide) ⟨65, [4], 8, true⟩ ⟨129, [4], 8, true⟩
  true true true true 1000 2000 (fun x => x + 1) ⟨fun a => a, []⟩ ⟨by simp, by simp⟩ (by decide)
  (by simp [Absent]) (by simp [Absent]) (by decide) (by decide) (by decide) (by decide)

end Verif.Memory
