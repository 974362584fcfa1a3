import Verif.Sum.Model
import Verif.Compose.Props
import Mathlib.Data.List.Perm.Basic

/- Property C19: the evaluation of sums and element-wise products. -/

namespace Verif.Sum

open Verif.Compose

variable {V : Type}

theorem firstFalse_some : ∀ (ts : List (Term V)) (i : Nat), firstFalse ts = some i →
    ∃ t, ts[i]? = some t ∧ t.update = false := by
  intro ts
  induction ts with
  | nil => intro i h; simp [firstFalse] at h
  | cons t ts ih =>
    intro i h
    unfold firstFalse at h
    split at h
    · cases hq : firstFalse ts with
      | none => rw [hq] at h; simp at h
      | some j =>
        rw [hq] at h
        simp at h
        subst h
        obtain ⟨t', h1, h2⟩ := ih j hq
        exact ⟨t', by simpa using h1, h2⟩
    · rename_i hu
      simp at h
      subst h
      exact ⟨t, rfl, by simpa using hu⟩

theorem firstFalse_none : ∀ (ts : List (Term V)), firstFalse ts = none → ∀ t ∈ ts, t.update = true := by
  intro ts
  induction ts with
  | nil => intro _ t h; simp at h
  | cons t ts ih =>
    intro h t' ht
    unfold firstFalse at h
    split at h
    · rename_i hu
      rcases List.mem_cons.mp ht with rfl | ht
      · exact hu
      · exact ih (by cases hq : firstFalse ts <;> simp_all) t' ht
    · cases h

/-- The schedule is a permutation of the operands; if no temporary buffer is needed, all the operands but the first one are
able to update their output. -/
theorem schedule_spec (ts : List (Term V)) :
    (schedule ts).1.Perm ts ∧ ((schedule ts).2 = false → ∀ t ∈ (schedule ts).1.tail, t.update = true) := by
  unfold schedule
  cases hf : firstFalse ts with
  | none =>
    exact ⟨List.Perm.refl _, fun _ t ht => firstFalse_none ts hf t (List.mem_of_mem_tail ht)⟩
  | some i =>
    obtain ⟨b, hb, hub⟩ := firstFalse_some ts i hf
    cases ts with
    | nil => simp at hb
    | cons a rest =>
      have hsw : swapFirst (a :: rest) i = ((a :: rest).set 0 b).set i a := by
        simp [swapFirst, hb]
      simp only [hsw]
      cases i with
      | zero =>
        have hab : a = b := by simpa using hb
        subst hab
        refine ⟨by simp, ?_⟩
        intro hc
        simp only [decide_eq_false_iff_not, not_lt] at hc
        have : (rest.filter (fun t => !t.update)).length = 0 := by
          simp only [countFalse, List.filter_cons, hub, Bool.not_false, if_true, List.length_cons] at hc
          omega
        simp only [List.length_eq_zero_iff, List.filter_eq_nil_iff] at this
        intro t ht
        simpa using this t (by simpa using ht)
      | succ j =>
        have hb' : rest[j]? = some b := by simpa using hb
        simp only [List.set_cons_zero, List.set_cons_succ]
        obtain ⟨hj, hbj⟩ := List.getElem?_eq_some_iff.mp hb'
        have hdec : rest = rest.take j ++ b :: rest.drop (j + 1) := by
          rw [← hbj]; simp
        have hset : rest.set j a = rest.take j ++ a :: rest.drop (j + 1) := by
          rw [List.set_eq_take_append_cons_drop, if_pos hj]
        refine ⟨?_, ?_⟩
        · rw [hset]
          conv_rhs => rw [hdec]
          calc (b :: (rest.take j ++ a :: rest.drop (j + 1))).Perm (b :: a :: (rest.take j ++ rest.drop (j + 1))) :=
                List.perm_middle.cons b
            _ |>.Perm (a :: b :: (rest.take j ++ rest.drop (j + 1))) := List.Perm.swap _ _ _
            _ |>.Perm (a :: (rest.take j ++ b :: rest.drop (j + 1))) := (List.perm_middle.cons a).symm
        · intro hc
          simp only [decide_eq_false_iff_not, not_lt] at hc
          -- a is updating, since the first False is further
          have hua : a.update = true := by
            by_contra hh
            have : firstFalse (a :: rest) = some 0 := by simp [firstFalse, hh]
            rw [this] at hf; simp at hf
          have hcount : ((rest.take j).filter (fun t => !t.update)).length = 0 ∧
              ((rest.drop (j + 1)).filter (fun t => !t.update)).length = 0 := by
            simp only [countFalse, List.filter_cons, hua, Bool.not_true, Bool.false_eq_true, if_false] at hc
            rw [hdec] at hc
            simp only [List.filter_append, List.filter_cons, hub, Bool.not_false, if_true, List.length_append,
              List.length_cons] at hc
            omega
          simp only [List.length_eq_zero_iff, List.filter_eq_nil_iff] at hcount
          intro t ht
          simp only [List.tail_cons] at ht
          rw [hset] at ht
          rcases List.mem_append.mp ht with ht | ht
          · simpa using hcount.1 t ht
          · rcases List.mem_cons.mp ht with rfl | ht
            · exact hua
            · simpa using hcount.2 t ht

/-- Accumulation of the results of the operands on the value v. -/
def fold (g : V → V → V) (v : V) (ts : List (Term V)) (acc : V) : V := ts.foldl (fun a t => g a (t.op.f v)) acc

/-- The accumulation does not depend on the order. -/
theorem fold_perm (g : V → V → V) (hc : ∀ a b, g a b = g b a) (ha : ∀ a b c, g (g a b) c = g a (g b c)) (v : V)
    (t t' : Term V) (ts ts' : List (Term V)) (h : (t :: ts).Perm (t' :: ts')) :
    fold g v ts (t.op.f v) = fold g v ts' (t'.op.f v) := by
  let step : Option V → Term V → Option V := fun o t => match o with
    | none => some (t.op.f v)
    | some a => some (g a (t.op.f v))
  have key : ∀ (l : List (Term V)) (a : V), l.foldl step (some a) = some (fold g v l a) := by
    intro l
    induction l with
    | nil => intro a; rfl
    | cons x l ih => intro a; exact ih _
  have hcomm : RightCommutative step := ⟨by
    intro o x y
    cases o with
    | none => simp only [step]; rw [hc]
    | some a => simp only [step]; rw [ha, hc (x.op.f v), ← ha]⟩
  have := h.foldl_eq (f := step) (b := none)
  simp only [List.foldl_cons] at this
  have h1 : step none t = some (t.op.f v) := rfl
  have h2 : step none t' = some (t'.op.f v) := rfl
  rw [h1, h2, key, key] at this
  exact Option.some.inj this

/-- The requirements of the operand are met by the arrays. -/
def Meets (op : Opd V) (x o : Arr) : Prop :=
  (op.alignedIn = true → x.aligned = true) ∧ (op.contiguousIn = true → x.contiguous = true) ∧
    (op.alignedOut = true → o.aligned = true) ∧ (op.contiguousOut = true → o.contiguous = true)

theorem loop_ok (g : V → V → V) (x out : Arr) (buf : Option Arr) (v : V) (hxo : x.id ≠ out.id)
    (hb : ∀ b ∈ buf, b.id ≠ x.id ∧ b.id ≠ out.id) :
    ∀ (ts : List (Term V)) (s : St V), (∀ t ∈ ts, Meets t.op x out) → (∀ b ∈ buf, ∀ t ∈ ts, Meets t.op x b) →
      (buf = none → ∀ t ∈ ts, t.update = true) → s.inPool x.id = false → s.inPool out.id = false →
      (∀ b ∈ buf, s.inPool b.id = false) → s.mem x.id = v →
      ∃ s', loop g x out buf ts s = .ok s' ∧ s'.pool = s.pool ∧ s'.next = s.next ∧
        s'.mem out.id = fold g v ts (s.mem out.id) ∧ s'.mem x.id = v ∧
        ∀ z, z ≠ out.id → (∀ b ∈ buf, z ≠ b.id) → s.inPool z = false → s'.mem z = s.mem z := by
  intro ts
  induction ts with
  | nil =>
    intro s _ _ _ _ _ _ hv
    exact ⟨s, rfl, rfl, rfl, rfl, hv, fun z _ _ _ => rfl⟩
  | cons t ts ih =>
    intro s hm hmb hu hpx hpo hpb hv
    have hmt := hm t (by simp)
    cases htu : t.update with
    | true =>
      obtain ⟨s1, h1, h2, h3, h4, h5⟩ := exec_ok t.op (some g) x out s hmt.1 hmt.2.1 hmt.2.2.1 hmt.2.2.2 (Or.inl hxo)
        (Or.inr hpx) (Or.inr hpo)
      have hpool : ∀ z, s1.inPool z = s.inPool z := by intro z; simp [St.inPool, h2]
      obtain ⟨s', e1, e2, e3, e4, e5, e6⟩ := ih s1 (fun t ht => hm t (by simp [ht]))
        (fun b hb t ht => hmb b hb t (by simp [ht])) (fun h t ht => hu h t (by simp [ht])) (by rw [hpool]; exact hpx)
        (by rw [hpool]; exact hpo) (fun b hb => by rw [hpool]; exact hpb b hb)
        (by rw [h5 x.id hxo (Or.inr hpx), hv])
      refine ⟨s', ?_, by rw [e2, h2], by rw [e3, h3], ?_, e5, ?_⟩
      · unfold loop
        simp only [htu, h1, bind, Except.bind]
        exact e1
      · rw [e4, h4, hv]; rfl
      · intro z hz hzb hzp
        rw [e6 z hz hzb (by rw [hpool]; exact hzp), h5 z hz (Or.inr hzp)]
    | false =>
      cases buf with
      | none =>
        have := hu rfl t (by simp)
        rw [htu] at this; cases this
      | some b =>
        obtain ⟨hbx, hbo⟩ := hb b rfl
        have hmt := hmb b rfl t (by simp)
        obtain ⟨s1, h1, h2, h3, h4, h5⟩ := exec_ok t.op none x b s hmt.1 hmt.2.1 hmt.2.2.1 hmt.2.2.2
          (Or.inl (fun h => hbx h.symm)) (Or.inr hpx) (Or.inr (hpb b rfl))
        set s2 : St V := { s1 with mem := fun z => if z = out.id then g (s1.mem out.id) (s1.mem b.id) else s1.mem z }
          with hs2
        have hpool : ∀ z, s2.inPool z = s.inPool z := by intro z; simp [St.inPool, hs2, h2]
        obtain ⟨s', e1, e2, e3, e4, e5, e6⟩ := ih s2 (fun t ht => hm t (by simp [ht]))
          (fun b hb t ht => hmb b hb t (by simp [ht])) (fun h t ht => hu h t (by simp [ht])) (by rw [hpool]; exact hpx)
          (by rw [hpool]; exact hpo) (fun b hb => by rw [hpool]; exact hpb b hb)
          (by
            simp only [hs2, if_neg hxo]
            rw [h5 x.id (fun h => hbx h.symm) (Or.inr hpx), hv])
        refine ⟨s', ?_, by rw [e2]; exact h2, by rw [e3]; exact h3, ?_, e5, ?_⟩
        · unfold loop
          simp only [htu, h1, bind, Except.bind, Except.map]
          exact e1
        · rw [e4]
          simp only [hs2, if_true, h4, combine, hv]
          rw [h5 out.id (fun h => hbo h.symm) (Or.inr hpo)]
          rfl
        · intro z hz hzb hzp
          rw [e6 z hz hzb (by rw [hpool]; exact hzp)]
          simp only [hs2, if_neg hz]
          exact h5 z (hzb b rfl) (Or.inr hzp)

/-- C19: the output of a sum (or product) is the sum (or product) of the results of the operands, in the order in which they
are written, whatever their ability to update their output; the input and the other arrays of the user are not modified;
the input and output are not left in the pool.  Partial: the requirements of the operands are met by the input and output,
and by any buffer of the pool, from which the temporary buffer is taken without requirement (see C19_requirements_fails). -/
theorem C19_sum_partial (tol : Nat → Nat → Bool) (g : V → V → V) (hc : ∀ a b, g a b = g b a)
    (ha : ∀ a b c, g (g a b) c = g a (g b c)) (t : Term V) (ts : List (Term V)) (hts : ts ≠ []) (x out : Arr)
    (s : St V) (R : Ready s x out) (hxo : x.id ≠ out.id) (hm : ∀ u ∈ t :: ts, Meets u.op x out)
    (hp : ∀ b ∈ s.pool, b.aligned = true) :
    ∃ s', direct tol g (t :: ts) x out s = .ok s' ∧
      s'.mem out.id = (ts.map (fun u => u.op.f (s.mem x.id))).foldl g (t.op.f (s.mem x.id)) ∧
      s'.mem x.id = s.mem x.id ∧
      (∀ z, z ≠ out.id → z ∉ s.pool.map Arr.id → z < s.next → s'.mem z = s.mem z) ∧
      (∀ b ∈ s'.pool, b.id ≠ x.id ∧ b.id ≠ out.id) := by
  obtain ⟨hperm, hneed⟩ := schedule_spec (t :: ts)
  have hlen : ¬ (t :: ts).length ≤ 1 := by
    have := List.length_pos_iff.mpr hts
    simp; omega
  have hnp : ∀ z, z ∉ s.pool.map Arr.id → s.inPool z = false := by
    intro z hz
    exact inPool_false (fun y hy he => hz (List.mem_map.mpr ⟨y, hy, he⟩))
  have hres : ∀ (t0 : Term V) (rest : List (Term V)), (t0 :: rest).Perm (t :: ts) →
      fold g (s.mem x.id) rest (t0.op.f (s.mem x.id)) =
        (ts.map (fun u => u.op.f (s.mem x.id))).foldl g (t.op.f (s.mem x.id)) := by
    intro t0 rest h
    rw [fold_perm g hc ha _ _ _ _ _ h, List.foldl_map]
    rfl
  unfold direct
  rw [if_neg hlen]
  cases hs : schedule (t :: ts) with
  | mk l need =>
    rw [hs] at hperm hneed
    cases l with
    | nil => exact absurd hperm.length_eq (by simp)
    | cons t0 rest =>
      have hm0 : ∀ u ∈ t0 :: rest, Meets u.op x out := fun u hu => hm u (hperm.mem_iff.mp hu)
      have h0 := hm0 t0 (by simp)
      obtain ⟨s1, h1, h2, h3, h4, h5⟩ := exec_ok t0.op none x out s h0.1 h0.2.1 h0.2.2.1 h0.2.2.2 (Or.inl hxo)
        (Or.inr (hnp _ R.inp.1)) (Or.inr (hnp _ R.out.1))
      have hx1 : s1.mem x.id = s.mem x.id := h5 x.id hxo (Or.inr (hnp _ R.inp.1))
      cases need with
      | false =>
        have hpool : ∀ z, s1.inPool z = s.inPool z := by intro z; simp [St.inPool, h2]
        obtain ⟨s', e1, e2, e3, e4, e5, e6⟩ := loop_ok g x out none (s.mem x.id) hxo (by simp) rest s1
          (fun u hu => hm0 u (by simp [hu])) (by simp) (fun _ u hu => hneed rfl u hu)
          (by rw [hpool]; exact hnp _ R.inp.1) (by rw [hpool]; exact hnp _ R.out.1) (by simp) hx1
        refine ⟨s', ?_, ?_, e5, ?_, ?_⟩
        · simp only [h1, bind, Except.bind, Bool.false_eq_true, if_false]
          exact e1
        · rw [e4, h4, ← hres t0 rest hperm]; rfl
        · intro z hz hzp hzn
          rw [e6 z hz (by simp) (by rw [hpool]; exact hnp z hzp)]
          exact h5 z hz (Or.inr (hnp z hzp))
        · intro b hb
          rw [e2, h2] at hb
          exact ⟨fun h => R.inp.1 (h ▸ List.mem_map.mpr ⟨b, hb, rfl⟩),
            fun h => R.out.1 (h ▸ List.mem_map.mpr ⟨b, hb, rfl⟩)⟩
      | true =>
        obtain ⟨e, s2, he, hec, hes, _, hsm, hsn⟩ := extract_ok tol s1 out.sh.nbytes false false
        obtain ⟨b, hb, hb1, hb2, hb3⟩ := view_ok e out.sh (Or.inl ⟨hec, hes⟩)
        -- the buffer
        have hfacts : e.aligned = true ∧ e.id ≠ x.id ∧ e.id ≠ out.id ∧ (∀ y ∈ s2.pool, y ∈ s.pool ∧ y.id ≠ e.id) ∧
            (∀ z, z ∉ s.pool.map Arr.id → z < s.next → z ≠ e.id) := by
          rcases hsn with ⟨p1, p2⟩ | ⟨p1, p2, p3⟩
          · rw [h2] at p2
            have hmem : e ∈ s.pool := p2.mem_iff.mpr (by simp)
            have hid : e.id ∈ s.pool.map Arr.id := List.mem_map.mpr ⟨e, hmem, rfl⟩
            have hnd := R.nodup
            rw [(p2.map Arr.id).nodup_iff, List.map_cons, List.nodup_cons] at hnd
            refine ⟨hp e hmem, fun h => R.inp.1 (h ▸ hid), fun h => R.out.1 (h ▸ hid), ?_, ?_⟩
            · intro y hy
              exact ⟨p2.mem_iff.mpr (by simp [hy]), fun h => hnd.1 (List.mem_map.mpr ⟨y, hy, h⟩)⟩
            · intro z hz _ h; exact hz (h ▸ hid)
          · have hal : e.aligned = true := by
              by_cases hq : popFirst (fun y => iscompatible tol y out.sh.nbytes false false) s1.pool = none
              · unfold extract at he
                rw [hq] at he
                simp only [Prod.mk.injEq] at he
                rw [← he.1]
              · unfold extract at he
                cases hq' : popFirst (fun y => iscompatible tol y out.sh.nbytes false false) s1.pool with
                | none => exact absurd hq' hq
                | some r =>
                  rw [hq'] at he
                  simp only [Prod.mk.injEq] at he
                  have := popFirst_some _ _ r.1 r.2 hq'
                  have hm : e ∈ s.pool := by rw [← h2, ← he.1]; exact this.2.mem_iff.mpr (by simp)
                  exact hp e hm
            refine ⟨hal, ?_, ?_, ?_, ?_⟩
            · have := R.inp.2; rw [p3, h3]; omega
            · have := R.out.2; rw [p3, h3]; omega
            · intro y hy
              rw [p2, h2] at hy
              have := R.lt y hy
              exact ⟨hy, by rw [p3, h3]; omega⟩
            · intro z _ hz; rw [p3, h3]; omega
        obtain ⟨heal, hex, heo, hep, hez⟩ := hfacts
        have hpool2 : ∀ z, z ∉ s.pool.map Arr.id → s2.inPool z = false := by
          intro z hz
          exact inPool_false (fun y hy h => hz (List.mem_map.mpr ⟨y, (hep y hy).1, h⟩))
        obtain ⟨s', e1, e2, e3, e4, e5, e6⟩ := loop_ok g x out (some b) (s.mem x.id) hxo
          (by intro b' h; cases h; rw [hb1]; exact ⟨hex, heo⟩) rest s2
          (fun u hu => hm0 u (by simp [hu]))
          (by
            intro b' h u hu
            cases h
            have := hm0 u (by simp [hu])
            exact ⟨this.1, this.2.1, fun _ => by rw [hb2]; exact heal, fun _ => by rw [hb3]; exact hec⟩)
          (by simp) (hpool2 _ R.inp.1) (hpool2 _ R.out.1)
          (by intro b' h; cases h; rw [hb1]; exact inPool_false (fun y hy => (hep y hy).2))
          (by rw [hsm]; exact hx1)
        have hadd := add_ok (s := s') (v := e) (by rw [e2]; exact fun y hy => (hep y hy).2)
        refine ⟨{ s' with pool := insertSorted e s'.pool }, ?_, ?_, ?_, ?_, ?_⟩
        · simp only [h1, bind, Except.bind, if_true, he, hb, e1]
          exact hadd
        · simp only
          rw [e4, hsm, h4, ← hres t0 rest hperm]; rfl
        · exact e5
        · intro z hz hzp hzn
          simp only
          rw [e6 z hz (by intro b' h; cases h; rw [hb1]; exact hez z hzp hzn) (hpool2 z hzp), hsm]
          exact h5 z hz (Or.inr (hnp z hzp))
        · intro y hy
          simp only at hy
          rw [(insertSorted_perm e s'.pool).mem_iff] at hy
          rcases List.mem_cons.mp hy with rfl | hy
          · exact ⟨hex, heo⟩
          · rw [e2] at hy
            have := (hep y hy).1
            exact ⟨fun h => R.inp.1 (h ▸ List.mem_map.mpr ⟨y, this, rfl⟩),
              fun h => R.out.1 (h ▸ List.mem_map.mpr ⟨y, this, rfl⟩)⟩

/-- A sum of four operands, two of which do not update their output. -/
def terms : List (Term Int) :=
  [⟨opOut 1, true⟩, ⟨opOut 2, false⟩, ⟨opIn 3, true⟩, ⟨opPool 4, false⟩]

/-- Hypotheses of C19_sum_partial: the result is (5+1)+(5+2)+(3*5)+(5+4). -/
example : Ready mem0 (arr 0) (arr 1) ∧ (∀ u ∈ terms, Meets u.op (arr 0) (arr 1)) ∧
    (∀ b ∈ mem0.pool, b.aligned = true) ∧ (schedule terms).2 = true ∧
    outcome (direct noTol (· + ·) terms (arr 0) (arr 1) mem0) = .ok (5, 37) := by
  refine ⟨⟨by decide, by simp [mem0, arr], by simp [mem0, arr], by simp [mem0, arr]⟩,
    by simp [terms, Meets, opOut, opIn, opPool], by simp [mem0, arr], by decide, by decide⟩

/-- C19 fails: the temporary buffer does not have to meet the requirements of the operands.  Here the second operand requires
an aligned output, as the sum then does; it is nevertheless given an unaligned buffer of the pool. -/
theorem C19_requirements_fails : ∃ (ts : List (Term Int)) (x out : Arr) (s : St Int), x.id ≠ out.id ∧
    Ready s x out ∧ (∀ u ∈ ts, Meets u.op x out) ∧ direct noTol (· + ·) ts x out s = .error .requirement := by
  refine ⟨[⟨opOut 1, false⟩, ⟨{ opOut 2 with alignedOut := true }, false⟩], arr 0, arr 1,
    { mem0 with pool := [{ arr 2 with aligned := false }] }, by decide,
    ⟨by decide, by simp [mem0, arr], by simp [mem0, arr], by simp [mem0, arr]⟩, ?_, rfl⟩
  simp [Meets, opOut, arr]

end Verif.Sum
