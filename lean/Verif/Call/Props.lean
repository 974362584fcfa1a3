import Verif.Call.Model
import Verif.Compose.Props

/- Property C50: the calls of an operator with no output, with another output, and in place. -/

namespace Verif.Call

open Verif.Compose

variable {V : Type}

/-- The buffers of the pool are distinct zones that have been allocated. -/
def PoolOk (s : St V) : Prop := (s.pool.map Arr.id).Nodup ∧ ∀ b ∈ s.pool.map Arr.id, b < s.next

theorem inPool_of {s : St V} {b : Nat} (h : b ∉ s.pool.map Arr.id) : s.inPool b = false :=
  inPool_false (fun x hx he => h (List.mem_map.mpr ⟨x, hx, he⟩))

theorem extract_wf (tol : Nat → Nat → Bool) (s : St V) (size : Nat) (al ct : Bool) (h : PoolOk s) :
    ∃ e s', extract tol s size al ct = (e, s') ∧ e.contiguous = true ∧ size ≤ e.sh.nbytes ∧
      (al = true → e.aligned = true) ∧ s'.mem = s.mem ∧ PoolOk s' ∧ e.id ∉ s'.pool.map Arr.id ∧ e.id < s'.next ∧
      s.next ≤ s'.next ∧ (∀ b ∈ s'.pool.map Arr.id, b ∈ s.pool.map Arr.id) ∧ Scratch s.pool s.next e.id := by
  obtain ⟨e, s', h1, h2, h3, h4, h5, h6⟩ := extract_ok tol s size al ct
  refine ⟨e, s', h1, h2, h3, h4, h5, ?_⟩
  rcases h6 with ⟨p1, p2⟩ | ⟨p1, p2, p3⟩
  · have hp := p2.map Arr.id
    have hnd := h.1
    rw [hp.nodup_iff, List.map_cons, List.nodup_cons] at hnd
    have hlt : ∀ b ∈ e.id :: s'.pool.map Arr.id, b < s.next := by
      intro b hb
      exact h.2 b (hp.mem_iff.mpr (by simpa using hb))
    refine ⟨⟨hnd.2, fun b hb => by rw [p1]; exact hlt b (List.mem_cons_of_mem _ hb)⟩, hnd.1,
      by rw [p1]; exact hlt e.id (by simp), by omega, fun b hb => hp.mem_iff.mpr (by
        rw [List.map_cons]; exact List.mem_cons_of_mem _ hb), Or.inl (hp.mem_iff.mpr (by simp))⟩
  · refine ⟨⟨by rw [p2]; exact h.1, fun b hb => ?_⟩, ?_, by omega, by omega, fun b hb => by rw [p2] at hb; exact hb,
      Or.inr (by omega)⟩
    · rw [p2] at hb; have := h.2 b hb; omega
    · rw [p2]; intro hb; have := h.2 _ hb; omega

theorem add_wf {s : St V} {v : Arr} (h : PoolOk s) (hv : v.id ∉ s.pool.map Arr.id) (hn : v.id < s.next) :
    ∃ s', add s v = .ok s' ∧ s'.mem = s.mem ∧ s'.next = s.next ∧ PoolOk s' ∧
      (s'.pool.map Arr.id).Perm (v.id :: s.pool.map Arr.id) := by
  have hp : ((insertSorted v s.pool).map Arr.id).Perm (v.id :: s.pool.map Arr.id) :=
    (insertSorted_perm v s.pool).map Arr.id
  refine ⟨{ s with pool := insertSorted v s.pool }, add_ok (fun x hx he => hv (List.mem_map.mpr ⟨x, hx, he⟩)), rfl, rfl, ⟨?_, ?_⟩,
    hp⟩
  · rw [hp.nodup_iff, List.nodup_cons]; exact ⟨hv, h.1⟩
  · intro b hb
    rcases List.mem_cons.mp (hp.mem_iff.mp hb) with rfl | hb
    · exact hn
    · exact h.2 b hb

theorem setIf_ok (cond : Bool) (v : Arr) (act : St V → Except Err (St V)) (s : St V) (h : PoolOk s)
    (hv : cond = true → v.id ∉ s.pool.map Arr.id ∧ v.id < s.next) (P : St V → St V → Prop)
    (hact : ∀ s1, s1.mem = s.mem → s1.next = s.next → PoolOk s1 →
      (s1.pool.map Arr.id).Perm (if cond then v.id :: s.pool.map Arr.id else s.pool.map Arr.id) →
      ∃ s2, act s1 = .ok s2 ∧ s2.next = s1.next ∧ (s2.pool.map Arr.id).Perm (s1.pool.map Arr.id) ∧ P s1 s2) :
    ∃ s1 s2 s', setIf cond v act s = .ok s' ∧ s1.mem = s.mem ∧ s'.mem = s2.mem ∧ s'.next = s.next ∧ PoolOk s' ∧
      (s'.pool.map Arr.id).Perm (s.pool.map Arr.id) ∧ P s1 s2 := by
  unfold setIf
  cases cond with
  | false =>
    obtain ⟨s2, h1, h2, h3, h4⟩ := hact s rfl rfl h (by simp)
    refine ⟨s, s2, s2, by simpa using h1, rfl, rfl, h2, ⟨?_, ?_⟩, h3, h4⟩
    · rw [h3.nodup_iff]; exact h.1
    · intro b hb; rw [h2]; exact h.2 b (h3.mem_iff.mp hb)
  | true =>
    obtain ⟨hv1, hv2⟩ := hv rfl
    obtain ⟨s1, a1, a2, a3, a4, a5⟩ := add_wf h hv1 hv2
    obtain ⟨s2, h1, h2, h3, h4⟩ := hact s1 a2 a3 a4 (by simpa using a5)
    have hmem : v.id ∈ s2.pool.map Arr.id := h3.mem_iff.mpr (a5.mem_iff.mpr (by simp))
    obtain ⟨y, hy, hye⟩ := List.mem_map.mp hmem
    obtain ⟨r, z, r1, r2, r3⟩ := remove_ok (s := s2) (v := v) ⟨y, hy, hye⟩
    have hp : (r.map Arr.id).Perm (s.pool.map Arr.id) := by
      have q1 := r3.map Arr.id
      rw [List.map_cons, r2] at q1
      exact (List.perm_cons _).mp (q1.symm.trans (h3.trans a5))
    refine ⟨s1, s2, { s2 with pool := r }, ?_, a2, rfl, ?_, ⟨?_, ?_⟩, hp, h4⟩
    · simp only [a1, h1, bind, Except.bind, if_true]
      exact r1
    · simp only; rw [h2, a3]
    · simp only; rw [hp.nodup_iff]; exact h.1
    · intro b hb
      simp only at hb ⊢
      rw [h2, a3]
      exact h.2 b (hp.mem_iff.mp hb)

/-- What is known of the input given to `direct`. -/
structure InputOk (op : Opd V) (x : Arr) (out : Option Arr) (s : St V) (i : Arr) (iBuf : Option Arr) (s1 : St V) : Prop where
  val : s1.mem i.id = s.mem x.id
  al : op.alignedIn = true → i.aligned = true
  ct : op.contiguousIn = true → i.contiguous = true
  pool : PoolOk s1
  sub : ∀ b ∈ s1.pool.map Arr.id, b ∈ s.pool.map Arr.id
  next : s.next ≤ s1.next
  lt : i.id < s1.next
  notIn : i.id ∉ s1.pool.map Arr.id
  buf : ∀ e ∈ iBuf, e.id = i.id ∧ Scratch s.pool s.next e.id
  nobuf : iBuf = none → i.id = x.id ∨ (op.inplace = true ∧ ∃ o ∈ out, i.id = o.id)
  same : i.id = x.id → s1 = s ∨ ∃ o ∈ out, o.id = x.id
  frame : ∀ z, z ≠ i.id → s1.mem z = s.mem z

theorem canHold_flags {b : Arr} {sh : Sh} {al ct : Bool} (h : canHold b sh al ct = true) :
    (al = true → b.aligned = true) ∧ (ct = true → b.contiguous = true) := by
  simp only [canHold] at h
  split at h
  · cases h
  · rename_i h0
    refine ⟨fun q => by simpa [q] using h0, fun q => ?_⟩
    split at h
    · simp [q] at h
    · rename_i h1; simpa using h1

theorem meets_iff {b : Arr} {al ct : Bool} (h : meets b al ct = true) :
    (al = true → b.aligned = true) ∧ (ct = true → b.contiguous = true) := canHold_flags h

theorem canHold_view {b : Arr} {sh : Sh} {al ct : Bool} (h : canHold b sh al ct = true) :
    (b.contiguous = true ∧ sh.nbytes ≤ b.sh.nbytes) ∨ sh = b.sh := by
  simp only [canHold] at h
  split at h
  · cases h
  · split at h
    · simp only [Bool.and_eq_true, decide_eq_true_eq] at h
      exact Or.inr h.2.symm
    · split at h
      · cases h
      · rename_i h1 _
        simp only [Bool.not_eq_true, Bool.not_eq_false'] at h1
        exact Or.inl ⟨h1, by simpa using h⟩

theorem intoOutput_cases (op : Opd V) (need : Sh) (out : Option Arr) :
    (∃ o ∈ out, op.inplace = true ∧ canHold o need op.alignedIn op.contiguousIn = true ∧
      intoOutput op need out = some o) ∨ intoOutput op need out = none := by
  cases out with
  | none => exact Or.inr rfl
  | some o =>
    by_cases hh : (op.inplace && canHold o need op.alignedIn op.contiguousIn) = true
    · have h2 := hh
      simp only [Bool.and_eq_true] at hh
      exact Or.inl ⟨o, rfl, hh.1, hh.2, by simp only [intoOutput, h2, if_true]⟩
    · exact Or.inr (by simp only [intoOutput, if_neg hh])

theorem validateInput_ok (tol : Nat → Nat → Bool) (op : Opd V) (x : Arr) (sameType : Bool) (need : Sh)
    (out : Option Arr) (s : St V) (h : PoolOk s) (hx : x.id ∉ s.pool.map Arr.id ∧ x.id < s.next)
    (ho : ∀ o ∈ out, o.id ∉ s.pool.map Arr.id ∧ o.id < s.next) :
    ∃ i iBuf s1, validateInput tol op x sameType need out s = .ok (i, iBuf, s1) ∧ InputOk op x out s i iBuf s1 := by
  unfold validateInput
  by_cases hc : (sameType && meets x op.alignedIn op.contiguousIn) = true
  · rw [if_pos hc]
    simp only [Bool.and_eq_true] at hc
    obtain ⟨m1, m2⟩ := meets_iff hc.2
    exact ⟨x, none, s, rfl, rfl, m1, m2, h, fun b hb => hb, le_refl _, hx.2, hx.1, by simp, fun _ => Or.inl rfl,
      fun _ => Or.inl rfl, fun z _ => rfl⟩
  · rw [if_neg hc]
    rcases intoOutput_cases op need out with ⟨o, hoo, hin, hcan, e⟩ | e
    · simp only [e]
      have hv := canHold_view hcan
      have hflag := canHold_flags hcan
      obtain ⟨i, hi, hi1, hi2, hi3⟩ := view_ok o need hv
      obtain ⟨ho1, ho2⟩ := ho o hoo
      simp only [hi, bind, Except.bind]
      refine ⟨i, none, copyTo s x.id i.id, rfl, ?_⟩
      refine ⟨by simp [copyTo], fun q => by rw [hi2]; exact hflag.1 q, fun q => by rw [hi3]; exact hflag.2 q, h,
        fun b hb => hb, le_refl _, by rw [hi1]; exact ho2, by rw [hi1]; exact ho1, by simp,
        fun _ => Or.inr ⟨hin, o, hoo, hi1⟩, fun q => Or.inr ⟨o, hoo, by rw [← hi1, q]⟩, ?_⟩
      intro z hz
      simp [copyTo, hz]
    · simp only [e]
      obtain ⟨b, s', q1, q2, q3, q4, q5, q6, q7, q8, q9, q10, q11⟩ :=
        extract_wf tol s need.nbytes op.alignedIn op.contiguousIn h
      obtain ⟨i, hi, hi1, hi2, hi3⟩ := view_ok b need (Or.inl ⟨q2, q3⟩)
      simp only [q1, hi, bind, Except.bind]
      refine ⟨i, some b, copyTo s' x.id i.id, rfl, ?_⟩
      have hbx : b.id ≠ x.id := by
        intro hh
        rcases q11 with hh' | hh'
        · exact hx.1 (hh ▸ hh')
        · have := hx.2; omega
      refine ⟨?_, fun q => by rw [hi2]; exact q4 q, fun _ => by rw [hi3]; exact q2, q6, q10, q9, by rw [hi1]; exact q8,
        by rw [hi1]; exact q7, ?_, by simp, fun q => absurd (hi1 ▸ q) hbx, ?_⟩
      · simp [copyTo, q5]
      · intro e' he'; cases he'; exact ⟨hi1.symm, q11⟩
      · intro z hz; simp [copyTo, hz, q5]

/-- What is known of the output given to `direct`. -/
structure OutputOk (op : Opd V) (out : Option Arr) (s : St V) (i : Arr) (o : Arr) (oBuf : Option Arr) (s1 : St V) :
    Prop where
  al : op.alignedOut = true → o.aligned = true
  ct : op.contiguousOut = true → o.contiguous = true
  sep : i.id ≠ o.id ∨ op.inplace = true
  pool : PoolOk s1
  sub : ∀ b ∈ s1.pool.map Arr.id, b ∈ s.pool.map Arr.id
  next : s.next ≤ s1.next
  lt : o.id < s1.next
  notIn : o.id ∉ s1.pool.map Arr.id
  mem : s1.mem = s.mem
  buf : ∀ e ∈ oBuf, e.id = o.id ∧ e.id ≠ i.id ∧ Scratch s.pool s.next e.id
  nobuf : oBuf = none → ∀ u ∈ out, u.id = o.id
  fresh : out = none → s.next ≤ o.id ∧ oBuf = none
  some : ∀ u ∈ out, u.id ≠ o.id → ∃ e, oBuf = some e

theorem validateOutput_ok (tol : Nat → Nat → Bool) (op : Opd V) (i : Arr) (shout : Sh) (out : Option Arr) (s : St V)
    (h : PoolOk s) (hi : i.id ∉ s.pool.map Arr.id ∧ i.id < s.next)
    (ho : ∀ o ∈ out, o.id ∉ s.pool.map Arr.id ∧ o.id < s.next) :
    ∃ o oBuf s1, validateOutput tol op i shout out s = .ok (o, oBuf, s1) ∧ OutputOk op out s i o oBuf s1 := by
  unfold validateOutput
  cases out with
  | none =>
    refine ⟨_, _, _, rfl, fun _ => rfl, fun _ => rfl, Or.inl (by simp only; omega), ⟨h.1, fun b hb => ?_⟩, fun b hb => hb,
      by simp, by simp, ?_, rfl, by simp, by simp, by simp, by simp⟩
    · have := h.2 b hb; simp only; omega
    · simp only; intro hb; have := h.2 _ hb; omega
  | some u =>
    obtain ⟨hu1, hu2⟩ := ho u rfl
    simp only
    by_cases hc : (!meets u op.alignedOut op.contiguousOut || (i.id == u.id && !op.inplace)) = true
    · rw [if_pos hc]
      obtain ⟨b, s', q1, q2, q3, q4, q5, q6, q7, q8, q9, q10, q11⟩ :=
        extract_wf tol s u.sh.nbytes op.alignedOut op.contiguousOut h
      obtain ⟨v, hv, hv1, hv2, hv3⟩ := view_ok b u.sh (Or.inl ⟨q2, q3⟩)
      have hbi : b.id ≠ i.id := by
        intro hh
        rcases q11 with hh' | hh'
        · exact hi.1 (hh ▸ hh')
        · have := hi.2; omega
      simp only [q1, hv, bind, Except.bind]
      refine ⟨v, some b, s', rfl, fun q => by rw [hv2]; exact q4 q, fun _ => by rw [hv3]; exact q2,
        Or.inl (by rw [hv1]; exact fun hh => hbi hh.symm), q6, q10, q9, by rw [hv1]; exact q8, by rw [hv1]; exact q7, q5, ?_,
        by simp, by simp, fun _ _ _ => ⟨b, rfl⟩⟩
      intro e he; cases he; exact ⟨hv1.symm, hbi, q11⟩
    · rw [if_neg hc]
      simp only [Bool.or_eq_true, Bool.not_eq_true', Bool.and_eq_true, beq_iff_eq, not_or, Bool.not_eq_false,
        not_and] at hc
      obtain ⟨m1, m2⟩ := meets_iff hc.1
      refine ⟨u, none, s, rfl, m1, m2, ?_, h, fun b hb => hb, le_refl _, hu2, hu1, rfl, by simp, ?_, by simp, ?_⟩
      · by_cases q : i.id = u.id
        · exact Or.inr (hc.2 q)
        · exact Or.inl q
      · intro _ u' hu'; cases hu'; rfl
      · intro u' hu' hne; cases hu'; exact absurd rfl hne

theorem addBack_ok (s : St V) (buf : Option Arr) (h : PoolOk s)
    (hb : ∀ e ∈ buf, e.id ∉ s.pool.map Arr.id ∧ e.id < s.next) :
    ∃ s', addBack s buf = .ok s' ∧ s'.mem = s.mem ∧ s'.next = s.next ∧ PoolOk s' ∧
      ∀ b ∈ s'.pool.map Arr.id, b ∈ s.pool.map Arr.id ∨ ∃ e ∈ buf, b = e.id := by
  cases buf with
  | none => exact ⟨s, rfl, rfl, rfl, h, fun b hb => Or.inl hb⟩
  | some e =>
    obtain ⟨h1, h2⟩ := hb e rfl
    obtain ⟨s', a1, a2, a3, a4, a5⟩ := add_wf h h1 h2
    refine ⟨s', a1, a2, a3, a4, fun b hb => ?_⟩
    rcases List.mem_cons.mp (a5.mem_iff.mp hb) with rfl | hb
    · exact Or.inr ⟨e, rfl, rfl⟩
    · exact Or.inl hb

/-- General result, with or without an operation. -/
theorem call_ok (tol : Nat → Nat → Bool) (op : Opd V) (update : Bool) (operation : Option (V → V → V)) (preserve : Bool)
    (x : Arr) (sameType : Bool) (need shout : Sh) (out : Option Arr) (s : St V) (h : PoolOk s)
    (hx : x.id ∉ s.pool.map Arr.id ∧ x.id < s.next) (ho : ∀ o ∈ out, o.id ∉ s.pool.map Arr.id ∧ o.id < s.next)
    (hpres : preserve = true ∨ ∀ o ∈ out, o.id ≠ x.id)
    (hop : operation.isSome = true → update = true ∧ sameType = true ∧ meets x op.alignedIn op.contiguousIn = true ∧
      ∃ o, out = some o ∧ meets o op.alignedOut op.contiguousOut = true ∧ o.id ≠ x.id) :
    ∃ r s', call tol op update operation preserve x sameType need shout out s = .ok (r, s') ∧
      (∀ o ∈ out, r = o) ∧ (out = none → s.next ≤ r.id) ∧
      s'.mem r.id = combine operation (s.mem r.id) (op.f (s.mem x.id)) ∧
      (∀ z, z ∉ s.pool.map Arr.id → z < s.next → z ≠ r.id → (z ≠ x.id ∨ preserve = true) → s'.mem z = s.mem z) ∧
      PoolOk s' ∧ (∀ b ∈ s'.pool.map Arr.id, (b ∈ s.pool.map Arr.id ∨ s.next ≤ b) ∧ b ≠ r.id) := by
  obtain ⟨i, iBuf, s1, e1, I⟩ := validateInput_ok tol op x sameType need out s h hx ho
  obtain ⟨o, oBuf, s2, e2, O⟩ := validateOutput_ok tol op i shout out s1 I.pool ⟨I.notIn, I.lt⟩
    (fun u hu => ⟨fun hb => (ho u hu).1 (I.sub _ hb), lt_of_lt_of_le (ho u hu).2 I.next⟩)
  have hi2 : i.id ∉ s2.pool.map Arr.id := fun hb => I.notIn (O.sub _ hb)
  have hil : i.id < s2.next := lt_of_lt_of_le I.lt O.next
  have hx2 : x.id ∉ s2.pool.map Arr.id := fun hb => hx.1 (I.sub _ (O.sub _ hb))
  have hxl : x.id < s2.next := lt_of_lt_of_le hx.2 (I.next.trans O.next)
  have hu2 : ∀ u ∈ out, u.id ∉ s2.pool.map Arr.id ∧ u.id < s2.next := fun u hu =>
    ⟨fun hb => (ho u hu).1 (I.sub _ (O.sub _ hb)), lt_of_lt_of_le (ho u hu).2 (I.next.trans O.next)⟩
  set u := out.getD o with hu
  set reuseX := x.id != i.id && !preserve with hrx
  set reuseOut := out.isSome && u.id != i.id && u.id != o.id with hro
  -- facts on the conditions
  have frx : reuseX = true → x.id ≠ i.id ∧ x.id ≠ o.id ∧ preserve = false := by
    intro hh
    simp only [hrx, Bool.and_eq_true, bne_iff_ne, ne_eq, Bool.not_eq_true'] at hh
    refine ⟨hh.1, ?_, hh.2⟩
    intro hxo
    rcases hpres with hp | hp
    · rw [hp] at hh; cases hh.2
    · cases hob : oBuf with
      | none =>
        cases hout : out with
        | none =>
          have := (O.fresh hout).1
          have := hx.2
          have := I.next
          omega
        | some u' =>
          have := O.nobuf hob u' (by rw [hout]; rfl)
          exact hp u' (by rw [hout]; rfl) (this.trans hxo.symm)
      | some e =>
        obtain ⟨q1, q2, q3⟩ := O.buf e (by rw [hob]; rfl)
        rw [← hxo] at q1
        rcases q3 with hh' | hh'
        · exact hx.1 (I.sub _ (q1 ▸ hh'))
        · have := hx.2; have := I.next; omega
  have fro : reuseOut = true → ∃ u' ∈ out, u = u' ∧ u.id ≠ i.id ∧ u.id ≠ o.id := by
    intro hh
    cases hout : out with
    | none => rw [hro, hout] at hh; simp at hh
    | some u' =>
      simp only [hro, Bool.and_eq_true, bne_iff_ne, ne_eq] at hh
      exact ⟨u', rfl, by rw [hu, hout]; rfl, hh.1.2, hh.2⟩
  -- the operation
  have hopmem : operation.isSome = true → s2.mem o.id = s.mem o.id ∧ (∀ u' ∈ out, u'.id = o.id) := by
    intro hh
    obtain ⟨_, p2, p3, u', p4, p5, p6⟩ := hop hh
    have e1' := e1
    unfold validateInput at e1'
    rw [if_pos (by simp [p2, p3])] at e1'
    simp only [Except.ok.injEq, Prod.mk.injEq] at e1'
    obtain ⟨rfl, rfl, rfl⟩ := e1'
    have e2' := e2
    unfold validateOutput at e2'
    rw [p4] at e2'
    simp only at e2'
    rw [if_neg (by simp [p5, Ne.symm p6])] at e2'
    simp only [Except.ok.injEq, Prod.mk.injEq] at e2'
    obtain ⟨rfl, rfl, rfl⟩ := e2'
    exact ⟨rfl, fun w hw => by rw [p4] at hw; cases hw; rfl⟩
  obtain ⟨sA, sB, s3, e3, a1, a2, a3, a4, a5, a6, a7⟩ := setIf_ok reuseX x
    (setIf reuseOut u (exec op operation i o)) s2 O.pool (fun _ => ⟨hx2, hxl⟩)
    (fun sA sB => sB.mem o.id = combine operation (sA.mem o.id) (op.f (sA.mem i.id)) ∧
      (∀ z, z ≠ o.id → z ∉ s2.pool.map Arr.id → (reuseX = true → z ≠ x.id) → (reuseOut = true → z ≠ u.id) →
        sB.mem z = sA.mem z))
    (by
      intro sA hA1 hA2 hA3 hA4
      have hAm : ∀ b, b ∉ s2.pool.map Arr.id → (reuseX = true → b ≠ x.id) → b ∉ sA.pool.map Arr.id := by
        intro b hb hbx hbA
        have := hA4.mem_iff.mp hbA
        split at this
        · rename_i hr
          rcases List.mem_cons.mp this with rfl | h'
          · exact hbx hr rfl
          · exact hb h'
        · exact hb this
      obtain ⟨sC, sD, s', f1, f2, f3, f4, f5, f6, f7, f8⟩ := setIf_ok reuseOut u (exec op operation i o) sA hA3
        (by
          intro hr
          obtain ⟨u', hu', hue, k1, k2⟩ := fro hr
          rw [hue]
          refine ⟨hAm _ (hu2 _ hu').1 ?_, by rw [hA2]; exact (hu2 _ hu').2⟩
          intro hrx'
          rcases hpres with hp | hp
          · have := (frx hrx').2.2; rw [hp] at this; cases this
          · exact hp _ hu')
        (fun sC sD => sD.mem o.id = combine operation (sC.mem o.id) (op.f (sC.mem i.id)) ∧
          (∀ z, z ≠ o.id → z ∉ s2.pool.map Arr.id → (reuseX = true → z ≠ x.id) → (reuseOut = true → z ≠ u.id) →
            sD.mem z = sC.mem z))
        (by
          intro sC hC1 hC2 hC3 hC4
          have hCm : ∀ b, b ∉ s2.pool.map Arr.id → (reuseX = true → b ≠ x.id) → (reuseOut = true → b ≠ u.id) →
              b ∉ sC.pool.map Arr.id := by
            intro b hb hbx hbu hbC
            have := hC4.mem_iff.mp hbC
            split at this
            · rename_i hr
              rcases List.mem_cons.mp this with h' | h'
              · exact hbu hr h'
              · exact hAm b hb hbx h'
            · exact hAm b hb hbx this
          have hiC : i.id ∉ sC.pool.map Arr.id := hCm _ hi2 (fun hr => fun q => (frx hr).1 q.symm)
            (fun hr => by obtain ⟨_, _, _, k1, _⟩ := fro hr; exact fun q => k1 q.symm)
          have hoC : o.id ∉ sC.pool.map Arr.id := hCm _ O.notIn (fun hr => fun q => (frx hr).2.1 q.symm)
            (fun hr => by obtain ⟨_, _, _, _, k2⟩ := fro hr; exact fun q => k2 q.symm)
          obtain ⟨sD, g1, g2, g3, g4, g5⟩ := exec_ok op operation i o sC I.al I.ct O.al O.ct O.sep
            (Or.inr (inPool_of hiC)) (Or.inr (inPool_of hoC))
          refine ⟨sD, g1, g3, by rw [g2], g4, ?_⟩
          intro z hz hzp hzx hzu
          exact g5 z hz (Or.inr (inPool_of (hCm z hzp hzx hzu))))
      refine ⟨s', f1, f4, f6, ?_, ?_⟩
      · rw [f3, f7, f2]
      · intro z k1 k2 k3 k4; rw [f3, f8 z k1 k2 k3 k4, f2])
  have hb3 : ∀ b, b ∈ s3.pool.map Arr.id ↔ b ∈ s2.pool.map Arr.id := fun b => a5.mem_iff
  obtain ⟨s4, e4, b1, b2, b3, b4⟩ := addBack_ok s3 iBuf a4 (by
    intro e he
    rw [(I.buf e he).1, hb3, a3]
    exact ⟨hi2, hil⟩)
  have hxo : x.id ≠ o.id ∨ x.id = u.id := by
    by_cases q : x.id = o.id
    · right
      cases hob : oBuf with
      | none =>
        cases hout : out with
        | none => rw [hu, hout]; exact q
        | some u' => rw [hu, hout]; exact q.trans (O.nobuf hob u' (by rw [hout]; rfl)).symm
      | some e =>
        exfalso
        obtain ⟨q1, q2, q3⟩ := O.buf e (by rw [hob]; rfl)
        rcases q3 with hh' | hh'
        · rw [q1, ← q] at hh'; exact hx.1 (I.sub _ hh')
        · rw [q1, ← q] at hh'; have := hx.2; have := I.next; omega
    · exact Or.inl q
  -- zones that are not scratch
  have hzo : ∀ z, z ∉ s.pool.map Arr.id → z < s.next → z ≠ u.id → z ≠ o.id := by
    intro z z1 z2 z3 hzo
    cases hob : oBuf with
    | none =>
      cases hout : out with
      | none => rw [hu, hout] at z3; exact z3 hzo
      | some u' =>
        rw [hu, hout] at z3
        exact z3 (hzo.trans (O.nobuf hob u' (by rw [hout]; rfl)).symm)
    | some e =>
      obtain ⟨q1, q2, q3⟩ := O.buf e (by rw [hob]; rfl)
      rw [q1, ← hzo] at q3
      rcases q3 with hh' | hh'
      · exact z1 (I.sub _ hh')
      · have := I.next; omega
  have hframe1 : ∀ z, z ∉ s.pool.map Arr.id → z < s.next → z ≠ u.id → s1.mem z = s.mem z := by
    intro z z1 z2 z3
    by_cases hzi : z = i.id
    · cases hib : iBuf with
      | none =>
        have huo : ∀ o' ∈ out, u = o' := by
          intro o' ho'; rw [hu]; cases out with
          | none => cases ho'
          | some w => cases ho'; rfl
        rcases I.nobuf hib with q | ⟨_, o', ho', q⟩
        · rcases I.same q with q' | ⟨o', ho', q'⟩
          · rw [q']
          · exfalso; rw [huo o' ho'] at z3; exact z3 (hzi.trans (q.trans q'.symm))
        · exfalso; rw [huo o' ho'] at z3; exact z3 (hzi.trans q)
      | some e =>
        exfalso
        obtain ⟨q1, q2⟩ := I.buf e (by rw [hib]; rfl)
        rw [q1, ← hzi] at q2
        rcases q2 with hh' | hh'
        · exact z1 hh'
        · omega
    · exact I.frame z hzi
  have hframe : ∀ z, z ∉ s.pool.map Arr.id → z < s.next → z ≠ u.id → (z ≠ x.id ∨ preserve = true) →
      s4.mem z = s.mem z := by
    intro z z1 z2 z3 z4
    rw [b1, a2, a7 z (hzo z z1 z2 z3) (fun hb => z1 (I.sub _ (O.sub _ hb))) ?_ (fun _ => z3), a1, O.mem,
      hframe1 z z1 z2 z3]
    intro hr
    rcases z4 with q | q
    · exact q
    · rw [(frx hr).2.2] at q; cases q
  have hval : s4.mem o.id = combine operation (s2.mem o.id) (op.f (s.mem x.id)) := by
    rw [b1, a2, a6, a1, O.mem, I.val]
  have hs4 : ∀ b ∈ s4.pool.map Arr.id, b ∈ s2.pool.map Arr.id ∨ (b = i.id ∧ Scratch s.pool s.next b) := by
    intro b hb
    rcases b4 b hb with q | ⟨e, he, rfl⟩
    · exact Or.inl ((hb3 b).mp q)
    · exact Or.inr (I.buf e he)
  have hcall : call tol op update operation preserve x sameType need shout out s = finish out o oBuf s4 := by
    unfold call
    rw [if_neg, if_neg]
    · simp only [e1, e2, bind, Except.bind]
      rw [← hu, ← hrx, ← hro]
      simp only [e3, e4]
    · intro hh
      simp only [Bool.and_eq_true] at hh
      obtain ⟨_, _, _, o', h', _⟩ := hop hh.1
      rw [h'] at hh; simp at hh
    · intro hh
      simp only [Bool.and_eq_true] at hh
      have := (hop hh.1).1
      rw [this] at hh; simp at hh
  have hnone : ∀ (w w' v : V), (operation.isSome = true → w = w') → combine operation w v = combine operation w' v := by
    intro w w' v hh
    cases operation with
    | none => rfl
    | some g => rw [hh rfl]
  rw [hcall]
  cases hout : out with
  | none =>
    have hur : u = o := by rw [hu, hout]; rfl
    obtain ⟨k1, k2⟩ := O.fresh hout
    refine ⟨o, s4, rfl, by simp, fun _ => by have := I.next; omega, ?_, ?_, b3, ?_⟩
    · rw [hval]; exact hnone _ _ _ (fun q => (hopmem q).1)
    · intro z z1 z2 z3 z4; exact hframe z z1 z2 (by rw [hur]; exact z3) z4
    · intro b hb
      rcases hs4 b hb with q | ⟨q1, q2⟩
      · exact ⟨Or.inl (I.sub _ (O.sub _ q)), fun q' => O.notIn (q' ▸ q)⟩
      · exact ⟨q2, by have := I.lt; omega⟩
  | some u' =>
    have hur : u = u' := by rw [hu, hout]; rfl
    have hum : u' ∈ out := by rw [hout]; rfl
    obtain ⟨w1, w2⟩ := ho u' hum
    by_cases hc : u'.id = o.id
    · refine ⟨u', s4, by simp only [finish, if_pos hc], by simp, by simp, ?_, ?_, b3, ?_⟩
      · rw [hc, hval]; exact hnone _ _ _ (fun q => (hopmem q).1)
      · intro z z1 z2 z3 z4; exact hframe z z1 z2 (by rw [hur]; exact z3) z4
      · intro b hb
        rcases hs4 b hb with q | ⟨q1, q2⟩
        · exact ⟨Or.inl (I.sub _ (O.sub _ q)), fun q' => w1 (q' ▸ I.sub _ (O.sub _ q))⟩
        · refine ⟨q2, ?_⟩
          rintro rfl
          rcases q2 with q2 | q2
          · exact w1 q2
          · omega
    · obtain ⟨e, he⟩ := O.some u' hum hc
      obtain ⟨k1, k2, k3⟩ := O.buf e (by rw [he]; rfl)
      obtain ⟨s5, g1, g2, g3, g4, g5⟩ := addBack_ok (copyTo s4 o.id u'.id) oBuf b3 (by
        intro e' he'
        obtain ⟨l1, l2, _⟩ := O.buf e' he'
        refine ⟨?_, ?_⟩
        · intro hb
          rcases hs4 _ hb with q | ⟨q, _⟩
          · rw [l1] at q; exact O.notIn q
          · exact l2 q
        · change e'.id < s4.next
          rw [b2, a3, l1]; exact O.lt)
      refine ⟨u', s5, by simp only [finish, if_neg hc, g1, Except.map], by simp, by simp, ?_, ?_, g4, ?_⟩
      · have : operation.isSome = false := by
          cases hq : operation.isSome with
          | false => rfl
          | true => exact absurd ((hopmem hq).2 u' hum) hc
        rw [g2]
        simp only [copyTo, if_true]
        rw [hval]
        exact hnone _ _ _ (fun q => by rw [this] at q; cases q)
      · intro z z1 z2 z3 z4
        rw [g2]
        simp only [copyTo, if_neg z3]
        exact hframe z z1 z2 (by rw [hur]; exact z3) z4
      · intro b hb
        have hsc : b ∈ s.pool.map Arr.id ∨ s.next ≤ b := by
          rcases g5 b hb with q | ⟨e', he', rfl⟩
          · rcases hs4 b q with q | ⟨_, q2⟩
            · exact Or.inl (I.sub _ (O.sub _ q))
            · exact q2
          · rcases (O.buf e' he').2.2 with q | q
            · exact Or.inl (I.sub _ q)
            · exact Or.inr (I.next.trans q)
        refine ⟨hsc, ?_⟩
        rintro rfl
        rcases hsc with q2 | q2
        · exact w1 q2
        · omega

/-- C50 (partial).  An operator called without output, with another output, or with the input as output, returns its value; the output is
the array given, or a new one, and the input is left as it is unless it is the output.  The other arrays that are
not buffers of the pool are left as they are, and neither the input nor the output is left in the pool.
Missing: `preserve_input=False` with an output that shares the memory of the input (see C50_not_preserved_fails), for which the result
does not hold. -/
theorem C50_call_partial (tol : Nat → Nat → Bool) (op : Opd V) (update preserve : Bool)
    (x : Arr) (sameType : Bool) (need shout : Sh) (out : Option Arr) (s : St V) (h : PoolOk s)
    (hx : x.id ∉ s.pool.map Arr.id ∧ x.id < s.next) (ho : ∀ o ∈ out, o.id ∉ s.pool.map Arr.id ∧ o.id < s.next)
    (hpres : preserve = true ∨ ∀ o ∈ out, o.id ≠ x.id) :
    ∃ r s', call tol op update none preserve x sameType need shout out s = .ok (r, s') ∧
      (∀ o ∈ out, r = o) ∧ (out = none → s.next ≤ r.id) ∧ s'.mem r.id = op.f (s.mem x.id) ∧
      (preserve = true → r.id ≠ x.id → s'.mem x.id = s.mem x.id) ∧
      (∀ z, z ∉ s.pool.map Arr.id → z < s.next → z ≠ r.id → z ≠ x.id → s'.mem z = s.mem z) ∧
      PoolOk s' ∧ x.id ∉ s'.pool.map Arr.id ∧ r.id ∉ s'.pool.map Arr.id := by
  obtain ⟨r, s', h1, h2, h3, h4, h5, h6, h7⟩ := call_ok tol op update none preserve x sameType need shout out s h hx ho
    hpres (by simp)
  refine ⟨r, s', h1, h2, h3, h4, fun hp hr => h5 _ hx.1 hx.2 (Ne.symm hr) (Or.inr hp),
    fun z z1 z2 z3 z4 => h5 z z1 z2 z3 (Or.inl z4), h6, ?_, fun hb => (h7 _ hb).2 rfl⟩
  intro hb
  rcases (h7 _ hb).1 with q | q
  · exact hx.1 q
  · omega

/-- C50 (partial).  A call that updates the output (`operation=operator.iadd` for example) combines what it contains with the value of
the operator.  Missing: the inputs and outputs that do not meet the requirements of the operator (see
C50_update_copy_fails and C50_update_temporary_fails), and an output that shares the memory of the input. -/
theorem C50_update_partial (tol : Nat → Nat → Bool) (op : Opd V) (g : V → V → V) (preserve : Bool)
    (x : Arr) (need shout : Sh) (o : Arr) (s : St V) (h : PoolOk s)
    (hx : x.id ∉ s.pool.map Arr.id ∧ x.id < s.next) (ho : o.id ∉ s.pool.map Arr.id ∧ o.id < s.next) (hne : o.id ≠ x.id)
    (hi : meets x op.alignedIn op.contiguousIn = true) (hm : meets o op.alignedOut op.contiguousOut = true) :
    ∃ s', call tol op true (some g) preserve x true need shout (some o) s = .ok (o, s') ∧
      s'.mem o.id = g (s.mem o.id) (op.f (s.mem x.id)) ∧
      (preserve = true → s'.mem x.id = s.mem x.id) ∧
      (∀ z, z ∉ s.pool.map Arr.id → z < s.next → z ≠ o.id → z ≠ x.id → s'.mem z = s.mem z) := by
  obtain ⟨r, s', h1, h2, h3, h4, h5, h6, h7⟩ := call_ok tol op true (some g) preserve x true need shout (some o) s h hx
    (by intro u hu; cases hu; exact ho) (Or.inr (by intro u hu; cases hu; exact hne))
    (fun _ => ⟨rfl, rfl, hi, o, rfl, hm, hne⟩)
  obtain rfl := h2 o rfl
  exact ⟨s', h1, h4, fun hp => h5 _ hx.1 hx.2 (Ne.symm hne) (Or.inr hp), fun z z1 z2 z3 z4 => h5 z z1 z2 z3 (Or.inl z4)⟩

/-- An operator whose flag update_output is not set, or an update without output, is refused. -/
theorem C50_update_refused (tol : Nat → Nat → Bool) (op : Opd V) (update : Bool) (g : V → V → V) (preserve : Bool)
    (x : Arr) (sameType : Bool) (need shout : Sh) (out : Option Arr) (s : St V) (h : update = false ∨ out = none) :
    call tol op update (some g) preserve x sameType need shout out s = .error .value := by
  unfold call
  rcases h with rfl | rfl
  · rw [if_pos (by simp)]
  · cases update
    · rw [if_pos (by simp)]
    · rw [if_neg (by simp), if_pos (by simp)]

/-! Examples and failures. -/

/-- An operator that requires contiguous arrays. -/
def opC (n : Int) : Opd Int := { opOut n with contiguousIn := true, contiguousOut := true }

/-- An array that is not contiguous. -/
def strided (id : Nat) : Arr := ⟨id, sh3, true, false⟩

/-- The contents of the zones 0 and 1, and the output. -/
def seen (r : Except Err (Arr × St Int)) : Except Err (Nat × Int × Int) :=
  r.map (fun p => (p.1.id, p.2.mem 0, p.2.mem 1))

/-- Hypotheses of C50_call_partial: an operator out of place that requires contiguous arrays, called in place with an array that
is not contiguous. -/
example : PoolOk mem0 ∧ (0 ∉ mem0.pool.map Arr.id ∧ 0 < mem0.next) ∧
    seen (call noTol (opC 3) false none true (strided 0) true sh3 sh3 (some (strided 0)) mem0) = .ok (0, 8, 100) ∧
    seen (call noTol (opC 3) false none true (strided 0) true sh3 sh3 none mem0) = .ok (3, 5, 100) ∧
    seen (call noTol (opIn 3) false none false (arr 0) false sh3 sh3 (some (arr 1)) mem0) = .ok (1, 5, 15) := by
  refine ⟨⟨by decide, by simp [mem0, arr]⟩, by simp [mem0, arr], by decide, by decide, by decide⟩

/-- Hypotheses of C50_update_partial. -/
example : PoolOk mem0 ∧ (0 ∉ mem0.pool.map Arr.id ∧ 0 < mem0.next) ∧ (1 ∉ mem0.pool.map Arr.id ∧ 1 < mem0.next) ∧
    meets (arr 0) (opC 3).alignedIn (opC 3).contiguousIn = true ∧
    meets (arr 1) (opC 3).alignedOut (opC 3).contiguousOut = true ∧
    seen (call noTol (opC 3) true (some (· + ·)) true (arr 0) true sh3 sh3 (some (arr 1)) mem0) = .ok (1, 5, 108) := by
  refine ⟨⟨by decide, by simp [mem0, arr]⟩, by simp [mem0, arr], by simp [mem0, arr], by decide, by decide, by decide⟩

/-- Hypothesis of C50_update_refused. -/
example : call noTol (opC 3) false (some (· + ·)) true (arr 0) true sh3 sh3 (some (arr 1)) mem0 = .error .value :=
  C50_update_refused _ _ _ _ _ _ _ _ _ _ _ (Or.inl rfl)

/-- C50 fails for `preserve_input=False` and an output that shares the memory of the input: if neither meets the requirements of the
operator, both are added to the pool, and the second addition raises a ValueError. -/
theorem C50_not_preserved_fails : ∃ (op : Opd Int) (x : Arr) (s : St Int), PoolOk s ∧
    (x.id ∉ s.pool.map Arr.id ∧ x.id < s.next) ∧
    call noTol op false none false x true x.sh x.sh (some x) s = .error .value ∧
    ∃ r s', call noTol op false none true x true x.sh x.sh (some x) s = .ok (r, s') := by
  refine ⟨opC 3, strided 0, mem0, ⟨by decide, by simp [mem0, arr]⟩, by simp [mem0, arr, strided], rfl, _, _, rfl⟩

/-- C50 fails for the update of an output by an operator that works in place, if the dtype of the input is not the one required:
the input is copied in the output before the update, so that what the output contains is lost. -/
theorem C50_update_copy_fails : ∃ (op : Opd Int) (x o : Arr) (s s' : St Int), PoolOk s ∧
    (x.id ∉ s.pool.map Arr.id ∧ x.id < s.next) ∧ (o.id ∉ s.pool.map Arr.id ∧ o.id < s.next) ∧ o.id ≠ x.id ∧
    call noTol op true (some (· + ·)) true x false x.sh x.sh (some o) s = .ok (o, s') ∧
    s'.mem o.id ≠ s.mem o.id + op.f (s.mem x.id) := by
  refine ⟨opIn 3, arr 0, arr 1, mem0, _, ⟨by decide, by simp [mem0, arr]⟩, by simp [mem0, arr], by simp [mem0, arr],
    by decide, rfl, by decide⟩

/-- C50 fails for the update of an output that does not meet the requirements of the operator: the update applies to a temporary buffer, in
which the output has not been copied. -/
theorem C50_update_temporary_fails : ∃ (op : Opd Int) (x o : Arr) (s s' : St Int), PoolOk s ∧
    (x.id ∉ s.pool.map Arr.id ∧ x.id < s.next) ∧ (o.id ∉ s.pool.map Arr.id ∧ o.id < s.next) ∧ o.id ≠ x.id ∧
    meets x op.alignedIn op.contiguousIn = true ∧
    call noTol op true (some (· + ·)) true x true x.sh x.sh (some o) s = .ok (o, s') ∧
    s'.mem o.id ≠ s.mem o.id + op.f (s.mem x.id) := by
  refine ⟨opC 3, arr 0, strided 1, mem0, _, ⟨by decide, by simp [mem0, arr]⟩, by simp [mem0, arr],
    by simp [mem0, arr, strided], by decide, by decide, rfl, by decide⟩

end Verif.Call
