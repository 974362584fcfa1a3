import Verif.Compose.Nested

/- Property C116: the evaluation of nested expressions. -/

namespace Verif.Nested

open Verif.Compose

variable {V : Type}

/-- The buffers of the pool are distinct and allocated, and they are aligned and contiguous. -/
structure WF (s : St V) : Prop where
  nodup : (s.pool.map Arr.id).Nodup
  lt : ∀ x ∈ s.pool, x.id < s.next
  al : ∀ x ∈ s.pool, x.aligned = true ∧ x.contiguous = true

/-- What is required for a call. -/
structure Pre (n : Node V) (g : Option (V → V → V)) (i o : Arr) (s : St V) : Prop where
  wf : WF s
  ial : i.aligned = true ∧ i.contiguous = true
  oal : o.aligned = true ∧ o.contiguous = true
  sh : o.sh = n.sh
  ilt : i.id < s.next
  olt : o.id < s.next
  sep : i.id ≠ o.id ∨ n.op.inplace = true
  pool : n.op.usesPool = false ∨ (s.inPool i.id = false ∧ s.inPool o.id = false)
  upd : g.isSome = true → n.update = true

/-- What a call does. -/
structure Post (n : Node V) (g : Option (V → V → V)) (i o : Arr) (s s' : St V) : Prop where
  val : s'.mem o.id = combine g (s.mem o.id) (n.op.f (s.mem i.id))
  frame : ∀ b, b ≠ o.id → b < s.next → (n.op.usesPool = false ∨ s.inPool b = false) → s'.mem b = s.mem b
  wf : WF s'
  next : s.next ≤ s'.next
  keep : ∀ x ∈ s.pool, ∃ y ∈ s'.pool, y.id = x.id
  new : ∀ y ∈ s'.pool, (∃ x ∈ s.pool, x.id = y.id) ∨ s.next ≤ y.id
  same : n.op.usesPool = false → s'.pool = s.pool ∧ s'.next = s.next

/-- The operator computes its value whenever it is called properly. -/
def Good (n : Node V) : Prop := ∀ g i o s, Pre n g i o s → ∃ s', n.call g i o s = .ok s' ∧ Post n g i o s s'

theorem call_eq {n : Node V} {g : Option (V → V → V)} {i o : Arr} {s : St V} (h : Pre n g i o s) : n.call g i o s = n.run g i o s := by
  unfold Node.call
  rw [if_neg, if_neg]
  · cases hg : g.isSome with
    | false => simp
    | true => simp [h.upd hg]
  · simp [h.ial.1, h.ial.2, h.oal.1, h.oal.2]

theorem inPool_false_iff {s : St V} {b : Nat} : s.inPool b = false ↔ ∀ x ∈ s.pool, x.id ≠ b := by
  simp only [St.inPool, List.any_eq_false, beq_iff_eq]

/-- An operator that is not made of operators. -/
theorem good_leaf (op : Opd V) (update : Bool) (sh : Sh) (h : op.usesPool = false) : Good (leaf op update sh) := by
  intro g i o s P
  rw [call_eq P]
  obtain ⟨s', h1, h2, h3, h4, h5⟩ := exec_ok op g i o s (fun _ => P.ial.1) (fun _ => P.ial.2) (fun _ => P.oal.1) (fun _ => P.oal.2) P.sep
    (Or.inl h) (Or.inl h)
  refine ⟨s', h1, h4, fun b hb _ hp => h5 b hb hp, ?_, by rw [h3], ?_, ?_, fun _ => ⟨h2, h3⟩⟩
  · exact ⟨by rw [h2]; exact P.wf.nodup, by rw [h2, h3]; exact P.wf.lt, by rw [h2]; exact P.wf.al⟩
  · intro x hx; exact ⟨x, by rw [h2]; exact hx, rfl⟩
  · intro y hy; rw [h2] at hy; exact Or.inl ⟨y, hy, rfl⟩

/-! ### Compositions -/

/-- What the operands compute together. -/
def value (ns : List (Node V)) (v : V) : V := ns.foldr (fun n x => n.op.f x) v

theorem value_append (a b : List (Node V)) (v : V) : value (a ++ b) v = value a (value b v) := by
  simp [value, List.foldr_append]

theorem get_ok (c : Ctx V) (pre b : List (Node V)) (n : Node V) (h : c.ns = pre ++ n :: b) : c.get (pre.length + 1) = .ok n := by
  have h1 : c.ns[pre.length]? = some n := by rw [h]; simp
  unfold Ctx.get
  simp only [h1]

theorem view_sh (ou : Arr) (sh : Sh) (hc : ou.contiguous = true) (h : sh.nbytes ≤ ou.sh.nbytes) : view ou sh = .ok { ou with sh := sh } := by
  unfold view
  rw [if_pos hc, if_pos h]

theorem inplace_ok (c : Ctx V) (hgood : ∀ n ∈ c.ns, Good n) (hnp : ∀ n ∈ c.ns, n.op.inplace = true → n.op.usesPool = false) :
    ∀ (m : Nat) (pre a b : List (Node V)) (l : Loop V),
    c.ns = pre ++ a ++ b → a.length = m → l.rem = pre.length + m → (∀ x ∈ a, x.op.inplace = true) →
    l.i.id = l.ou.id → l.i.aligned = true ∧ l.i.contiguous = true → l.ou.aligned = true ∧ l.ou.contiguous = true →
    (∀ x ∈ a, x.sh.nbytes ≤ l.ou.sh.nbytes) → WF l.s → l.ou.id < l.s.next →
    ∃ l', inplaceLoop c m l = .ok l' ∧ l'.rem = pre.length ∧ l'.i.id = l.ou.id ∧ (l'.i.aligned = true ∧ l'.i.contiguous = true) ∧
      l'.iu = l.iu ∧ l'.ou = l.ou ∧ l'.s.pool = l.s.pool ∧ l'.s.next = l.s.next ∧ l'.s.mem l.ou.id = value a (l.s.mem l.ou.id) ∧
      ∀ b, b ≠ l.ou.id → b < l.s.next → l'.s.mem b = l.s.mem b := by
  intro m
  induction m with
  | zero =>
    intro pre a b l h1 h2 h3 h4 h5 h6 h7 h8 h9 h10
    have : a = [] := List.length_eq_zero_iff.mp h2
    subst this
    exact ⟨l, rfl, by simpa using h3, h5, h6, rfl, rfl, rfl, rfl, rfl, fun b _ _ => rfl⟩
  | succ m ih =>
    intro pre a b l h1 h2 h3 h4 h5 h6 h7 h8 h9 h10
    have ha : a ≠ [] := by rintro rfl; simp at h2
    obtain ⟨a', x, rfl⟩ : ∃ a' x, a = a' ++ [x] := ⟨a.dropLast, a.getLast ha, (List.dropLast_concat_getLast ha).symm⟩
    have hn : a'.length = m := by simpa using h2
    have hops : c.ns = (pre ++ a') ++ x :: b := by rw [h1]; simp
    have hg := get_ok c (pre ++ a') b x hops
    have hrem : l.rem = (pre ++ a').length + 1 := by rw [h3]; simp [hn]; omega
    have hxm : x ∈ c.ns := by rw [hops]; simp
    have hxi := h4 x (by simp)
    have hv := view_sh l.ou x.sh h7.2 (h8 x (by simp))
    set o : Arr := { l.ou with sh := x.sh } with ho
    have hxp := hnp x hxm hxi
    obtain ⟨s', hs, Q⟩ := hgood x hxm none l.i o l.s
      ⟨h9, h6, h7, rfl, by rw [h5]; exact h10, h10, Or.inr hxi, Or.inl hxp, by simp⟩
    obtain ⟨q1, q2⟩ := Q.same hxp
    obtain ⟨l', e1, e2, e3, e4, e6, e7, e8, e9, e10, e11⟩ := ih pre a' (x :: b)
      { l with rem := l.rem - 1, i := o, s := s' } (by rw [hops]) hn
      (by simp only; rw [h3]; omega) (fun y hy => h4 y (by simp [hy])) rfl h7 h7
      (fun y hy => h8 y (by simp [hy])) Q.wf (by simp only; rw [q2]; exact h10)
    refine ⟨l', ?_, e2, e3, e4, e6, e7, ?_, ?_, ?_, ?_⟩
    · unfold inplaceLoop
      rw [← hrem] at hg
      simp only [hg, hv, hs, bind, Except.bind]
      exact e1
    · rw [e8]; exact q1
    · rw [e9]; exact q2
    · rw [e10]
      simp only
      have := Q.val
      simp only [ho, combine] at this
      rw [this, h5, value_append]
      rfl
    · intro b hb hlt
      rw [e11 b hb (by simp only; rw [q2]; exact hlt)]
      exact Q.frame b hb hlt (Or.inl hxp)

/-- What is assumed of the operands and arrays; `pool0` and `next0` are those of the initial state. -/
structure Env (c : Ctx V) (input : Arr) (pool0 : List Arr) (next0 : Nat) : Prop where
  good : ∀ n ∈ c.ns, Good n
  noPool : ∀ n ∈ c.ns, n.op.inplace = true → n.op.usesPool = false
  upd : c.operation.isSome = true → ∀ n ∈ c.ns.head?, n.update = true
  outSh : ∀ n ∈ c.ns.head?, n.sh = c.output.sh
  pres : c.preserve = true
  diff : input.id ≠ c.output.id
  oal : c.output.aligned = true ∧ c.output.contiguous = true
  outS : ¬ Scratch pool0 next0 c.output.id
  inS : ¬ Scratch pool0 next0 input.id

/-- The state when the groups number k and greater have been dealt with. -/
structure Inv (c : Ctx V) (input : Arr) (pool0 : List Arr) (next0 : Nat) (mem0 : Nat → V) (k : Nat)
    (pre : List (Node V)) (v : V) (l : Loop V) : Prop where
  rem : l.rem = pre.length
  ids : l.i.id = l.iu.id
  ial : l.i.aligned = true ∧ l.i.contiguous = true
  iual : l.iu.aligned = true ∧ l.iu.contiguous = true
  val : l.s.mem l.iu.id = v
  wf : WF l.s
  iult : l.iu.id < l.s.next
  next : next0 ≤ l.s.next
  scr : ∀ x ∈ l.s.pool, Scratch pool0 next0 x.id
  keep : ∀ x ∈ pool0, x.id ≠ l.iu.id → ∃ y ∈ l.s.pool, y.id = x.id
  iuNot : ∀ x ∈ l.s.pool, x.id ≠ l.iu.id
  kind1 : k + 1 = c.ngroups → l.iu.id = input.id
  kind2 : k + 1 < c.ngroups → l.iu.id = c.output.id ∨ Scratch pool0 next0 l.iu.id
  kind0 : k = 0 → l.iu.id = c.output.id
  frame : ∀ b, ¬ Scratch pool0 next0 b → b ≠ c.output.id → l.s.mem b = mem0 b
  old : c.operation.isSome = true → 0 < k → l.s.mem c.output.id = mem0 c.output.id
  sep : k % 2 = 1 → l.iu.id ≠ c.output.id

theorem not_scratch_lt {pool0 : List Arr} {next0 b : Nat} (h : ¬ Scratch pool0 next0 b) : b < next0 := by
  unfold Scratch at h
  omega

/-! ### The pool -/

theorem extract_wf (tol : Nat → Nat → Bool) (s : St V) (size : Nat) (al ct : Bool) (W : WF s) :
    ∃ e s', extract tol s size al ct = (e, s') ∧ (e.aligned = true ∧ e.contiguous = true) ∧ size ≤ e.sh.nbytes ∧ s'.mem = s.mem ∧ WF s' ∧
      s.next ≤ s'.next ∧ e.id < s'.next ∧ (∀ x ∈ s'.pool, x.id ≠ e.id) ∧ (∀ x ∈ s'.pool, x ∈ s.pool) ∧
      (∀ x ∈ s.pool, x.id ≠ e.id → x ∈ s'.pool) ∧ ((∃ x ∈ s.pool, x.id = e.id) ∨ s.next ≤ e.id) := by
  unfold extract
  cases hq : popFirst (fun x => iscompatible tol x size al ct) s.pool with
  | none =>
    refine ⟨_, _, rfl, ⟨rfl, rfl⟩, by rw [nbytes_one], rfl, ⟨W.nodup, ?_, W.al⟩, Nat.le_succ _, Nat.lt_succ_self _, ?_, fun x hx => hx, fun x hx _ => hx,
      Or.inr (le_refl _)⟩
    · intro x hx; exact Nat.lt_succ_of_lt (W.lt x hx)
    · intro x hx; exact Nat.ne_of_lt (W.lt x hx)
  | some y =>
    obtain ⟨h1, h2⟩ := popFirst_some _ _ y.1 y.2 hq
    obtain ⟨_, c2, _⟩ := compat_out h1
    have hm : y.1 ∈ s.pool := h2.mem_iff.mpr (by simp)
    have hnd := W.nodup
    rw [(h2.map Arr.id).nodup_iff, List.map_cons, List.nodup_cons] at hnd
    have hsub : ∀ x ∈ y.2, x ∈ s.pool := fun x hx => h2.mem_iff.mpr (by simp [hx])
    refine ⟨_, _, rfl, W.al _ hm, c2, rfl, ⟨hnd.2, fun x hx => W.lt x (hsub x hx), fun x hx => W.al x (hsub x hx)⟩, le_refl _, W.lt _ hm, ?_, hsub, ?_,
      Or.inl ⟨y.1, hm, rfl⟩⟩
    · intro x hx he; exact hnd.1 (List.mem_map.mpr ⟨x, hx, he⟩)
    · intro x hx hne
      rcases List.mem_cons.mp (h2.mem_iff.mp hx) with rfl | h
      · exact absurd rfl hne
      · exact h

theorem add_wf {s : St V} {v : Arr} (W : WF s) (h : ∀ x ∈ s.pool, x.id ≠ v.id) (hv : v.aligned = true ∧ v.contiguous = true) (hl : v.id < s.next) :
    ∃ s', add s v = .ok s' ∧ s'.mem = s.mem ∧ s'.next = s.next ∧ WF s' ∧ ∀ x, x ∈ s'.pool ↔ x = v ∨ x ∈ s.pool := by
  have hp := insertSorted_perm v s.pool
  have hm : ∀ x, x ∈ insertSorted v s.pool ↔ x = v ∨ x ∈ s.pool := fun x => by rw [hp.mem_iff, List.mem_cons]
  refine ⟨_, add_ok h, rfl, rfl, ⟨?_, ?_, ?_⟩, hm⟩
  · rw [(hp.map Arr.id).nodup_iff, List.map_cons, List.nodup_cons]
    refine ⟨?_, W.nodup⟩
    intro hh
    obtain ⟨x, hx, e⟩ := List.mem_map.mp hh
    exact h x hx e
  · intro x hx
    rcases (hm x).mp hx with rfl | hx
    · exact hl
    · exact W.lt x hx
  · intro x hx
    rcases (hm x).mp hx with rfl | hx
    · exact hv
    · exact W.al x hx

theorem remove_wf {s : St V} {v : Arr} (W : WF s) (h : ∃ x ∈ s.pool, x.id = v.id) :
    ∃ s', remove s v = .ok s' ∧ s'.mem = s.mem ∧ s'.next = s.next ∧ WF s' ∧ ∀ x, x ∈ s'.pool ↔ x ∈ s.pool ∧ x.id ≠ v.id := by
  obtain ⟨r, x, h1, h2, h3⟩ := remove_ok h
  have hnd := W.nodup
  rw [(h3.map Arr.id).nodup_iff, List.map_cons, List.nodup_cons] at hnd
  have hsub : ∀ y ∈ r, y ∈ s.pool := fun y hy => h3.mem_iff.mpr (by simp [hy])
  refine ⟨_, h1, rfl, rfl, ⟨hnd.2, fun y hy => W.lt y (hsub y hy), fun y hy => W.al y (hsub y hy)⟩, ?_⟩
  intro y
  constructor
  · intro hy
    refine ⟨hsub y hy, fun he => hnd.1 ?_⟩
    rw [h2, ← he]
    exact List.mem_map.mpr ⟨y, hy, rfl⟩
  · rintro ⟨hy, hne⟩
    rcases List.mem_cons.mp (h3.mem_iff.mp hy) with rfl | hy
    · exact absurd h2 hne
    · exact hy

/-- The sizes of the outputs of the operands. -/
def sizes (ns : List (Node V)) : List Nat := (ns.map Node.sh).map Sh.nbytes

theorem sizes_mem (pre a done : List (Node V)) (n : Node V) (m : Nat)
    (h : ∀ j, j ≤ a.length → (sizes (pre ++ (a ++ n :: done))).getD (pre.length + j) 0 ≤ m) : ∀ x ∈ a ++ [n], x.sh.nbytes ≤ m := by
  intro x hx
  obtain ⟨j, hj, rfl⟩ := List.mem_iff_getElem.mp hx
  have hj' : j ≤ a.length := by simp at hj; omega
  have := h j hj'
  have e : pre ++ (a ++ n :: done) = pre ++ ((a ++ [n]) ++ done) := by simp
  rw [e] at this
  have h1 : (pre ++ ((a ++ [n]) ++ done))[pre.length + j]? = some (a ++ [n])[j] := by
    rw [List.getElem?_append_right (by omega), Nat.add_sub_cancel_left, List.getElem?_append_left hj, List.getElem?_eq_getElem hj]
  simpa only [sizes, List.getD_eq_getElem?_getD, List.getElem?_map, h1, Option.map_some, Option.getD_some] using this

/-- A group that is not the innermost one. -/
theorem group_ok (c : Ctx V) (input : Arr) (pool0 : List Arr) (next0 : Nat) (mem0 : Nat → V) (E : Env c input pool0 next0) (k : Nat) (g : Group)
    (bufsize : Nat) (pre a done : List (Node V)) (n : Node V) (v : V) (l : Loop V) (hns : c.ns = pre ++ (a ++ n :: done)) (hn : a.length = g.n)
    (hk : k + 2 ≤ c.ngroups) (hpre : pre = [] ↔ k = 0) 
    (hsafe : n.op.usesPool = true → k ≠ 0 → c.operation = none ∧ (k + 2 = c.ngroups ∨ k % 2 = 0)) (ha : ∀ x ∈ a, x.op.inplace = true)
    (hbuf : ∀ j, j ≤ g.n → (sizes c.ns).getD (pre.length + j) 0 ≤ bufsize)
    (h0 : k = 0 → (∀ j, j ≤ g.n → (sizes c.ns).getD j 0 ≤ (sizes c.ns).getD 0 0) ∧ (c.operation.isSome = true → g.n = 0))
    (I : Inv c input pool0 next0 mem0 (k + 1) (pre ++ (a ++ [n])) v l) :
    ∃ l', groupStep c k g bufsize l = .ok l' ∧
      Inv c input pool0 next0 mem0 k pre (if k = 0 then combine c.operation (mem0 c.output.id) (value (a ++ [n]) v) else value (a ++ [n]) v) l' := by
  have hrem : l.rem = (pre ++ a).length + 1 := by rw [I.rem]; simp; omega
  have hns' : c.ns = (pre ++ a) ++ n :: done := by rw [hns]; simp
  have hget := get_ok c (pre ++ a) done n hns'
  rw [← hrem] at hget
  have hnm : n ∈ c.ns := by rw [hns]; simp
  have hsz : ∀ x ∈ a ++ [n], x.sh.nbytes ≤ bufsize := sizes_mem pre a done n bufsize (by rw [hn, ← hns]; exact hbuf)
  have hoNot : ∀ x ∈ l.s.pool, x.id ≠ c.output.id := fun x hx he => E.outS (he ▸ I.scr x hx)
  have holt : c.output.id < l.s.next := lt_of_lt_of_le (not_scratch_lt E.outS) I.next
  -- the operation
  have hupd : (if l.rem = 1 then c.operation else none).isSome = true → n.update = true := by
    intro h
    split at h
    · rename_i h1
      have hz : pre ++ a = [] := by
        apply List.length_eq_zero_iff.mp
        omega
      exact E.upd h n (by rw [hns', hz]; rfl)
    · cases h
  -- putting back the input
  have hback : ∀ (s1 : St V), WF s1 → l.s.next ≤ s1.next → (∀ x ∈ s1.pool, x.id ≠ l.iu.id ∨ l.iu.id = c.output.id) →
      ∃ s2, giveBack c k l.iu s1 = .ok s2 ∧ s2.mem = s1.mem ∧ s2.next = s1.next ∧ WF s2 ∧
        (∀ x ∈ s2.pool, x ∈ s1.pool ∨ (x = l.iu ∧ l.iu.id ≠ c.output.id ∧ Scratch pool0 next0 l.iu.id)) ∧ (∀ x ∈ s1.pool, x ∈ s2.pool) ∧
        (Scratch pool0 next0 l.iu.id → l.iu ∈ s2.pool) := by
    intro s1 W1 hnx hp
    have hgive : ((decide (k + 2 < c.ngroups) || !c.preserve) && l.iu.id != c.output.id) = true ↔ k + 2 < c.ngroups ∧ l.iu.id ≠ c.output.id := by
      rw [E.pres]; simp
    unfold giveBack
    by_cases hb : k + 2 < c.ngroups ∧ l.iu.id ≠ c.output.id
    · rw [if_pos (hgive.mpr hb)]
      obtain ⟨s2, e1, e2, e3, e4, e5⟩ := add_wf (v := l.iu) W1 (fun x hx => (hp x hx).resolve_right hb.2) I.iual (lt_of_lt_of_le I.iult hnx)
      refine ⟨s2, e1, e2, e3, e4, ?_, fun x hx => (e5 x).mpr (Or.inr hx), fun _ => (e5 _).mpr (Or.inl rfl)⟩
      intro x hx
      rcases (e5 x).mp hx with rfl | hx
      · exact Or.inr ⟨rfl, hb.2, (I.kind2 (by omega)).resolve_left hb.2⟩
      · exact Or.inl hx
    · rw [if_neg (fun h => hb (hgive.mp h))]
      refine ⟨s1, rfl, rfl, rfl, W1, fun x hx => Or.inl hx, fun x hx => hx, ?_⟩
      intro hs
      exfalso
      by_cases hlt : k + 2 < c.ngroups
      · have : l.iu.id = c.output.id := by
          by_contra hh
          exact hb ⟨hlt, hh⟩
        exact E.outS (this ▸ hs)
      · exact E.inS ((I.kind1 (by omega)) ▸ hs)
  by_cases hr : reuseOutput c k g bufsize l.i = true
  · -- the output is the buffer of the group
    have hgb : getBuffer c (reuseOutput c k g bufsize l.i) g bufsize l.s = .ok (c.output, l.s) := by rw [hr]; rfl
    have hcase : k ≠ 0 → c.operation.isNone = true ∧ k % 2 = 0 ∧ bufsize ≤ c.output.sh.nbytes ∧ c.output.id ≠ l.i.id := by
      intro hk0
      simp only [reuseOutput, Bool.or_eq_true, Bool.and_eq_true, beq_iff_eq, bne_iff_ne, ne_eq] at hr
      rcases hr with ⟨⟨⟨h1, h2⟩, h3⟩, h4⟩ | h
      · exact ⟨h1, h2, (compat_out h3).2.1, h4⟩
      · exact absurd h hk0
    have hview : ∀ x ∈ a ++ [n], x.sh.nbytes ≤ c.output.sh.nbytes := by
      by_cases hk0 : k = 0
      · have hp := hpre.mpr hk0
        subst hp
        have hhead : (sizes c.ns).getD 0 0 = c.output.sh.nbytes := by
          cases hc : c.ns with
          | nil => rw [hc] at hnm; simp at hnm
          | cons m ms =>
            have := E.outSh m (by rw [hc]; rfl)
            simp [sizes, this]
        have := (h0 hk0).1
        rw [hhead] at this
        exact sizes_mem [] a done n _ (by rw [hn, ← hns]; simpa using this)
      · exact fun x hx => (hsz x hx).trans (hcase hk0).2.2.1
    have hv := view_sh c.output n.sh E.oal.2 (hview n (by simp))
    set o : Arr := { c.output with sh := n.sh } with ho
    have hsep : l.i.id ≠ o.id := by
      by_cases hk0 : k = 0
      · rw [I.ids]; exact I.sep (by omega)
      · exact fun h => (hcase hk0).2.2.2 h.symm
    obtain ⟨s1, hs, Q⟩ := E.good n hnm (if l.rem = 1 then c.operation else none) l.i o l.s
      ⟨I.wf, I.ial, E.oal, rfl, by rw [I.ids]; exact I.iult, holt, Or.inl hsep,
        Or.inr ⟨inPool_false (by rw [I.ids]; exact I.iuNot), inPool_false hoNot⟩, hupd⟩
    have hnew : ∀ x ∈ s1.pool, Scratch pool0 next0 x.id ∧ x.id ≠ l.iu.id := by
      intro x hx
      rcases Q.new x hx with ⟨y, hy, e⟩ | h
      · rw [← e]; exact ⟨I.scr y hy, I.iuNot y hy⟩
      · have := I.next
        have := I.iult
        exact ⟨Or.inr (by omega), by omega⟩
    obtain ⟨s2, hgb2, hs2m, hs2n, W2, hp1, hp2, hp3⟩ := hback s1 Q.wf Q.next (fun x hx => Or.inl (hnew x hx).2)
    have hmem2 : ∀ x ∈ s2.pool, x.id ≠ c.output.id ∧ Scratch pool0 next0 x.id := by
      intro x hx
      have : Scratch pool0 next0 x.id := by
        rcases hp1 x hx with h | ⟨rfl, _, h⟩
        · exact (hnew x h).1
        · exact h
      exact ⟨fun h => E.outS (h ▸ this), this⟩
    have holt2 : c.output.id < s2.next := by rw [hs2n]; exact lt_of_lt_of_le holt Q.next
    obtain ⟨l', e1, e2, e3, e4, e6, e7, e8, e9, e10, e11⟩ := inplace_ok c E.good E.noPool g.n pre a (n :: done)
      { rem := l.rem - 1, i := o, iu := c.output, ou := c.output, s := s2 } (by rw [hns]; simp) hn
      (by simp only; rw [hrem]; simp [hn]) ha rfl E.oal E.oal (fun x hx => hview x (by simp [hx])) W2 holt2
    simp only at e3 e7 e8 e9 e10 e11
    refine ⟨l', ?_, ?_⟩
    · unfold groupStep
      simp only [hgb, hget, hv, hs, hgb2, e1, bind, Except.bind]
      rw [hr]
      rfl
    · have hiu : l'.iu = c.output := e6
      have hiu' : l'.iu.id = c.output.id := by rw [hiu]
      refine ⟨e2, by rw [e3, hiu], e4, by rw [hiu]; exact E.oal, ?_, ⟨by rw [e8]; exact W2.nodup, by rw [e8, e9]; exact W2.lt, by rw [e8]; exact W2.al⟩,
        by rw [hiu', e9]; exact holt2, by rw [e9, hs2n]; exact I.next.trans Q.next, by rw [e8]; exact fun x hx => (hmem2 x hx).2, ?_,
        by rw [e8, hiu']; exact fun x hx => (hmem2 x hx).1, fun h => by omega, fun _ => Or.inl hiu', fun _ => hiu', ?_, ?_, ?_⟩
      · have hval := Q.val
        simp only [ho] at hval
        rw [hiu', e10, hs2m, hval, I.ids, I.val]
        by_cases hk0 : k = 0
        · rw [if_pos hk0]
          cases hop : c.operation with
          | none =>
            have : (if l.rem = 1 then (none : Option (V → V → V)) else none) = none := by split <;> rfl
            rw [this, value_append]
            rfl
          | some gg =>
            have hz := (h0 hk0).2 (by simp [hop])
            rw [hz] at hn
            have ha0 : a = [] := List.length_eq_zero_iff.mp hn
            subst ha0
            have hp0 := hpre.mpr hk0
            subst hp0
            rw [if_pos (by rw [hrem]; rfl)]
            rw [I.old (by simp [hop]) (by omega)]
            rfl
        · rw [if_neg hk0]
          have hpr : pre ≠ [] := fun h => hk0 (hpre.mp h)
          have : l.rem ≠ 1 := by
            rw [hrem]; simp; intro h; exact absurd h hpr
          rw [if_neg this, value_append]
          rfl
      · intro x hx hne
        rw [e8]
        by_cases hxi : x.id = l.iu.id
        · exact ⟨l.iu, hp3 (hxi ▸ Or.inl (List.mem_map.mpr ⟨x, hx, rfl⟩)), hxi.symm⟩
        · obtain ⟨y, hy, ey⟩ := I.keep x hx hxi
          obtain ⟨z, hz, ez⟩ := Q.keep y hy
          exact ⟨z, hp2 z hz, ez.trans ey⟩
      · intro b hb hbo
        have hblt : b < l.s.next := lt_of_lt_of_le (not_scratch_lt hb) I.next
        rw [e11 b hbo (by rw [hs2n]; exact lt_of_lt_of_le hblt Q.next), hs2m,
          Q.frame b hbo hblt (Or.inr (inPool_false (fun x hx he => hb (he ▸ I.scr x hx))))]
        exact I.frame b hb hbo
      · intro h hk0
        have := (hcase (by omega)).1
        cases hq : c.operation with
        | none => rw [hq] at h; cases h
        | some _ => rw [hq] at this; cases this
      · intro hk1
        have := (hcase (by omega)).2.1
        omega
  · -- the buffer comes from the pool
    have hk0 : k ≠ 0 := by
      intro h
      exact hr (by simp [reuseOutput, h])
    have hrf : reuseOutput c k g bufsize l.i = false := by simpa using hr
    have hpr : pre ≠ [] := fun h => hk0 (hpre.mp h)
    have hrem1 : l.rem ≠ 1 := by
      rw [hrem]; simp; intro h; exact absurd h hpr
    have huse : n.op.usesPool = true → l.iu.id ≠ c.output.id ∧ c.operation = none := by
      intro h
      obtain ⟨h1, h2⟩ := hsafe h hk0
      refine ⟨?_, h1⟩
      rcases h2 with h2 | h2
      · rw [I.kind1 (by omega)]; exact E.diff
      · exact I.sep (by omega)
    obtain ⟨e, s0, he, heal, hes, hsm, W0, hnx, helt, hepool, hsub, hkeep, hesrc⟩ := extract_wf c.tol l.s bufsize g.aligned g.contiguous I.wf
    have hesc : Scratch pool0 next0 e.id := by
      rcases hesrc with ⟨x, hx, ex⟩ | h
      · exact ex ▸ I.scr x hx
      · exact Or.inr (I.next.trans h)
    have heiu : e.id ≠ l.iu.id := by
      rcases hesrc with ⟨x, hx, ex⟩ | h
      · rw [← ex]; exact I.iuNot x hx
      · have := I.iult; omega
    have heo : e.id ≠ c.output.id := fun h => E.outS (h ▸ hesc)
    obtain ⟨s1, hadd, h1m, h1n, W1, h1p⟩ := add_wf (s := s0) (v := c.output) W0 (fun x hx => hoNot x (hsub x hx)) E.oal (lt_of_lt_of_le holt hnx)
    have hgb : getBuffer c (reuseOutput c k g bufsize l.i) g bufsize l.s = .ok (e, s1) := by
      unfold getBuffer
      rw [hrf]
      simp only [he, Bool.false_eq_true, if_false, hadd]
      rfl
    have hv := view_sh e n.sh heal.2 ((hsz n (by simp)).trans hes)
    set o : Arr := { e with sh := n.sh } with ho
    have helt1 : e.id < s1.next := by rw [h1n]; exact helt
    have hiult1 : l.iu.id < s1.next := by rw [h1n]; exact lt_of_lt_of_le I.iult hnx
    have heNot1 : ∀ x ∈ s1.pool, x.id ≠ e.id := by
      intro x hx
      rcases (h1p x).mp hx with rfl | hx
      · exact fun h => heo h.symm
      · exact hepool x hx
    have hiuNot1 : ∀ x ∈ s1.pool, x.id ≠ l.iu.id ∨ l.iu.id = c.output.id := by
      intro x hx
      rcases (h1p x).mp hx with rfl | hx
      · by_cases h : l.iu.id = c.output.id
        · exact Or.inr h
        · exact Or.inl (fun h' => h h'.symm)
      · exact Or.inl (I.iuNot x (hsub x hx))
    have hin : n.op.usesPool = false ∨ (s1.inPool l.i.id = false ∧ s1.inPool o.id = false) := by
      by_cases h : n.op.usesPool = true
      · refine Or.inr ⟨inPool_false ?_, inPool_false heNot1⟩
        intro x hx
        rw [I.ids]
        exact (hiuNot1 x hx).resolve_right (huse h).1
      · exact Or.inl (by simpa using h)
    obtain ⟨s2, hs, Q⟩ := E.good n hnm (if l.rem = 1 then c.operation else none) l.i o s1
      ⟨W1, I.ial, heal, rfl, by rw [I.ids]; exact hiult1, helt1, Or.inl (by rw [I.ids]; exact fun h => heiu h.symm), hin, hupd⟩
    have hnew : ∀ x ∈ s2.pool, (x.id = c.output.id ∨ Scratch pool0 next0 x.id) ∧ (x.id ≠ l.iu.id ∨ l.iu.id = c.output.id) ∧ x.id ≠ e.id := by
      intro x hx
      rcases Q.new x hx with ⟨y, hy, ey⟩ | h
      · rw [← ey]
        refine ⟨?_, hiuNot1 y hy, heNot1 y hy⟩
        rcases (h1p y).mp hy with rfl | hy
        · exact Or.inl rfl
        · exact Or.inr (I.scr y (hsub y hy))
      · have := I.next
        exact ⟨Or.inr (Or.inr (by omega)), Or.inl (by omega), by omega⟩
    obtain ⟨s3, hgb2, h3m, h3n, W3, hp1, hp2, hp3⟩ := hback s2 Q.wf (by have := Q.next; omega) (fun x hx => (hnew x hx).2.1)
    have hmem3 : ∀ x ∈ s3.pool, (x.id = c.output.id ∨ Scratch pool0 next0 x.id) ∧ x.id ≠ e.id := by
      intro x hx
      rcases hp1 x hx with h | ⟨rfl, _, h⟩
      · exact ⟨(hnew x h).1, (hnew x h).2.2⟩
      · exact ⟨Or.inr h, fun h => heiu h.symm⟩
    have helt3 : e.id < s3.next := by rw [h3n]; exact lt_of_lt_of_le helt1 Q.next
    obtain ⟨l', e1, e2, e3, e4, e6, e7, e8, e9, e10, e11⟩ := inplace_ok c E.good E.noPool g.n pre a (n :: done)
      { rem := l.rem - 1, i := o, iu := e, ou := e, s := s3 } (by rw [hns]; simp) hn
      (by simp only; rw [hrem]; simp [hn]) ha rfl heal heal (fun x hx => (hsz x (by simp [hx])).trans hes) W3 helt3
    simp only at e3 e7 e8 e9 e10 e11
    have W4 : WF l'.s := ⟨by rw [e8]; exact W3.nodup, by rw [e8, e9]; exact W3.lt, by rw [e8]; exact W3.al⟩
    obtain ⟨y, hy, ey⟩ := Q.keep c.output ((h1p _).mpr (Or.inl rfl))
    obtain ⟨s4, hrem2, h4m, h4n, W5, h4p⟩ := remove_wf (s := l'.s) (v := c.output) W4 ⟨y, by rw [e8]; exact hp2 y hy, ey⟩
    have hmem4 : ∀ x ∈ s4.pool, Scratch pool0 next0 x.id ∧ x.id ≠ e.id := by
      intro x hx
      obtain ⟨h5, h6⟩ := (h4p x).mp hx
      rw [e8] at h5
      have := hmem3 x h5
      exact ⟨this.1.resolve_left h6, this.2⟩
    refine ⟨{ l' with s := s4 }, ?_, ?_⟩
    · unfold groupStep
      simp only [hgb, hget, hv, hs, hgb2, e1, bind, Except.bind]
      rw [hrf]
      simp only [takeOutput, hrem2]
      rfl
    · have hiu : l'.iu = e := e6
      have hiu' : l'.iu.id = e.id := by rw [hiu]
      have hnx4 : next0 ≤ s4.next := by
        rw [h4n, e9, h3n]
        have := Q.next
        have := I.next
        omega
      refine ⟨e2, by simp only; rw [hiu']; exact e3, e4, by simp only; rw [hiu]; exact heal, ?_, W5, by simp only; rw [hiu', h4n, e9]; exact helt3, hnx4,
        fun x hx => (hmem4 x hx).1, ?_, fun x hx => by simp only; rw [hiu']; exact (hmem4 x hx).2, fun h => by omega,
        fun _ => Or.inr (by simp only; rw [hiu']; exact hesc), fun h => absurd h hk0, ?_, ?_, fun _ => by simp only; rw [hiu']; exact heo⟩
      · have hval := Q.val
        simp only [ho] at hval
        simp only
        rw [hiu', h4m, e10, h3m, hval, I.ids, if_neg hrem1, if_neg hk0, value_append, h1m, hsm, I.val]
        rfl
      · intro x hx hne
        simp only at hne ⊢
        rw [hiu'] at hne
        have hxo : x.id ≠ c.output.id := fun h => E.outS (Or.inl (List.mem_map.mpr ⟨x, hx, h⟩))
        by_cases hxi : x.id = l.iu.id
        · refine ⟨l.iu, (h4p _).mpr ⟨?_, ?_⟩, hxi.symm⟩
          · rw [e8]; exact hp3 (hxi ▸ Or.inl (List.mem_map.mpr ⟨x, hx, rfl⟩))
          · rw [← hxi]; exact hxo
        · obtain ⟨y, hy, ey⟩ := I.keep x hx hxi
          obtain ⟨z, hz, ez⟩ := Q.keep y ((h1p y).mpr (Or.inr (hkeep y hy (by rw [ey]; exact hne))))
          refine ⟨z, (h4p z).mpr ⟨by rw [e8]; exact hp2 z hz, ?_⟩, ez.trans ey⟩
          rw [ez, ey]; exact hxo
      · intro b hb hbo
        have hbe : b ≠ e.id := fun h => hb (h ▸ hesc)
        have hblt : b < s1.next := by
          have := not_scratch_lt hb
          have := I.next
          omega
        simp only
        rw [h4m, e11 b hbe (by rw [h3n]; exact lt_of_lt_of_le hblt Q.next), h3m, Q.frame b hbe hblt (Or.inr (inPool_false (fun x hx hxe => by
          rcases (h1p x).mp hx with rfl | hx
          · exact hbo hxe.symm
          · exact hb (hxe ▸ I.scr x (hsub x hx))))), h1m, hsm]
        exact I.frame b hb hbo
      · intro h _
        have hno : n.op.usesPool = false := by
          cases hu : n.op.usesPool with
          | false => rfl
          | true => rw [(huse hu).2] at h; cases h
        have holt1 : c.output.id < s1.next := by rw [h1n]; exact lt_of_lt_of_le holt hnx
        have hoe : c.output.id ≠ e.id := fun h => heo h.symm
        simp only
        rw [h4m, e11 _ hoe (by rw [h3n]; exact lt_of_lt_of_le holt1 Q.next), h3m, Q.frame _ hoe holt1 (Or.inl hno), h1m, hsm]
        exact I.old h (by omega)

theorem map_eq_split {ns : List (Node V)} {a : List (Opd V)} {op : Opd V} {b : List (Opd V)} (h : ns.map Node.op = a ++ op :: b) :
    ∃ a' n b', ns = a' ++ n :: b' ∧ a'.map Node.op = a ∧ n.op = op ∧ b'.map Node.op = b := by
  obtain ⟨a', r, e1, e2, e3⟩ := List.map_eq_append_iff.mp h
  obtain ⟨n, b', e4, e5, e6⟩ := List.map_eq_cons_iff.mp e3
  exact ⟨a', n, b', by rw [e1, e4], e2, e5, e6⟩

theorem numOut_append (a b : List (Opd V)) : numOut (a ++ b) = numOut a + numOut b := by simp [numOut]

/-- There are at least as many groups as operands that do not work in place, and one more for the last operand. -/
theorem fits_count : ∀ (G : List Group) (ops : List (Opd V)) (x : Opd V), Fits G (ops ++ [x]) → (∀ g ∈ G.getLast?, g.n = 0) → numOut ops + 2 ≤ G.length := by
  intro G
  induction G with
  | nil => intro ops x h; exact h.elim
  | cons g gs ih =>
    intro ops x h hl
    cases gs with
    | nil =>
      have := hl g rfl
      have h1 := h.1
      rw [this] at h1
      simp at h1
    | cons g' gs =>
      obtain ⟨a, op, b, e, _, ha, _, _, _, _, hb⟩ := h
      have ha0 : numOut a = 0 := by
        simp only [numOut, List.length_eq_zero_iff, List.filter_eq_nil_iff]
        intro y hy
        simp [(ha y hy).1]
      rcases List.eq_nil_or_concat b with rfl | ⟨b', y, rfl⟩
      · have : ops = a := by
          have := (List.append_inj' e rfl).1
          exact this
        rw [this, ha0]
        simp
      · have e' : ops ++ [x] = (a ++ op :: b') ++ [y] := by rw [e]; simp
        obtain ⟨h1, h2⟩ := List.append_inj' e' rfl
        have := ih b' y (by simpa using hb) (by intro z hz; exact hl z (by simpa using hz))
        rw [h1, numOut_append, ha0]
        have h3 : numOut (op :: b') ≤ numOut b' + 1 := by
          simp only [numOut, List.filter_cons]
          split <;> simp
        simp at this ⊢
        omega

/-- Where the operands that take buffers from the pool are. -/
def Safe (c : Ctx V) : Prop := ∀ pre n post, c.ns = pre ++ n :: post → n.op.usesPool = true → pre = [] ∨ (c.operation = none ∧
  (post = [] ∨ ((∀ m ∈ c.ns.head?, m.op.inplace = false) ∧ numOut (pre.map Node.op) % 2 = 0)))

theorem groups_ok (c : Ctx V) (input : Arr) (s : St V) (E : Env c input s.pool s.next) (W : WF s) (hin : input.aligned = true ∧ input.contiguous = true)
    (ou : Arr) (hne : c.ns ≠ []) (hsafe : Safe c)
    (hng : ∀ n ∈ c.ns.getLast?, ∀ m ∈ c.ns.head?, c.ngroups ≤ numOut (c.ns.map Node.op) + 1 + n.op.inplace.toNat + m.op.inplace.toNat) :
    ∀ (info : List (Group × Nat)) (k : Nat) (pre cns : List (Node V)), Fits (info.map Prod.fst) (cns.map Node.op) →
      c.ns = pre ++ cns → numOut (pre.map Node.op) ≤ k → BufOk (sizes c.ns) pre.length info → k + info.length = c.ngroups →
      (pre = [] ↔ k = 0) → LastOk input true (info.map Prod.fst) →
      (k = 0 → ∃ g b gs, info = (g, b) :: gs ∧ (∀ j, j ≤ g.n → (sizes c.ns).getD j 0 ≤ (sizes c.ns).getD 0 0) ∧
        (c.operation.isSome = true → g.n = 0)) →
      ∃ l, groupsLoop c k info ⟨c.ns.length, input, input, ou, s⟩ = .ok l ∧
        Inv c input s.pool s.next s.mem k pre
          (if k = 0 then combine c.operation (s.mem c.output.id) (value cns (s.mem input.id)) else value cns (s.mem input.id)) l := by
  intro info
  induction info with
  | nil => intro k pre cns h; exact h.elim
  | cons p rest ih =>
    obtain ⟨g, bs⟩ := p
    intro k pre cns hf hops hle hbuf hk hpre hlast hfirst
    have hilt := not_scratch_lt E.inS
    cases rest with
    | nil =>
      obtain ⟨hf1, hf2⟩ := hf
      obtain ⟨G', g', e, hg1, hg2, hg3⟩ := hlast
      have hgg : g = g' := by
        cases G' with
        | nil => simpa using e
        | cons a b => simp at e
      subst hgg
      have hk1 : k + 1 = c.ngroups := by simpa using hk
      have hn0 : g.n = 0 := hg3 rfl
      have hc0 : cns = [] := by
        have := hf1.trans hn0
        simpa using this
      subst hc0
      have hpne : pre ≠ [] := by rintro rfl; exact hne (by simpa using hops)
      have hk0 : k ≠ 0 := fun h => hpne (hpre.mpr h)
      refine ⟨_, by simp only [groupsLoop, hn0]; rfl, ?_⟩
      rw [if_neg hk0]
      refine ⟨by simp [hops], rfl, hin, hin, rfl, W, hilt, le_refl _, ?_, fun x hx _ => ⟨x, hx, rfl⟩, ?_, fun _ => rfl, fun h => by omega,
        fun h => absurd h hk0, fun b _ _ => rfl, fun _ _ => rfl, fun _ => E.diff⟩
      · intro x hx; exact Or.inl (List.mem_map.mpr ⟨x, hx, rfl⟩)
      · intro x hx he; exact E.inS (Or.inl (List.mem_map.mpr ⟨x, hx, he⟩))
    | cons p2 rest =>
      obtain ⟨g2, bs2⟩ := p2
      obtain ⟨a0, op, b0, he0, hn, hf1, _, _, _, _, hf6⟩ := hf
      obtain ⟨a, n, b, he, rfl, rfl, rfl⟩ := map_eq_split he0
      obtain ⟨hb1, hb2⟩ := hbuf
      have hlast' : LastOk input true (((g2, bs2) :: rest).map Prod.fst) := by
        obtain ⟨G', g', e, hg⟩ := hlast
        cases G' with
        | nil => simp at e
        | cons x y =>
          simp only [List.map_cons, List.cons_append, List.cons.injEq] at e
          exact ⟨y, g', by simpa using e.2, hg⟩
      have hn' : a.length = g.n := by simpa using hn
      have ha0 : numOut (a.map Node.op) = 0 := by
        simp only [numOut, List.length_eq_zero_iff, List.filter_eq_nil_iff]
        intro y hy
        simp [(hf1 y hy).1]
      have hle' : numOut ((pre ++ (a ++ [n])).map Node.op) ≤ k + 1 := by
        rw [List.map_append, List.map_append, numOut_append, numOut_append, ha0]
        have : numOut ([n].map Node.op) ≤ 1 := by
          simp only [numOut]
          exact (List.length_filter_le _ _)
        omega
      obtain ⟨l, hl, hI⟩ := ih (k + 1) (pre ++ (a ++ [n])) b hf6 (by rw [hops, he]; simp)
        hle' (by simpa [hn', Nat.add_assoc] using hb2) (by simp at hk ⊢; omega) (by simp) hlast' (by intro h; omega)
      rw [if_neg (by omega)] at hI
      obtain ⟨l', hl', hI'⟩ := group_ok c input s.pool s.next s.mem E k g bs pre a b n (value b (s.mem input.id)) l
        (by rw [hops, he]) hn' (by simp at hk; omega) hpre
        (by
          intro hu hk0
          have hpne : pre ≠ [] := fun h => hk0 (hpre.mp h)
          have hdec : c.ns = (pre ++ a) ++ n :: b := by rw [hops, he]; simp
          rcases hsafe (pre ++ a) n b hdec hu with h | ⟨h1, h2⟩
          · simp only [List.append_eq_nil_iff] at h; exact absurd h.1 hpne
          · refine ⟨h1, ?_⟩
            rcases List.eq_nil_or_concat b with rfl | ⟨b', y, rfl⟩
            · left
              cases rest with
              | nil => simpa using hk
              | cons p3 rest =>
                obtain ⟨a1, op1, b1, he1, _⟩ := hf6
                simp at he1
            · right
              rcases h2 with h2 | ⟨h2, h3⟩
              · simp at h2
              · have hlast2 : ∀ z ∈ (((g2, bs2) :: rest).map Prod.fst).getLast?, z.n = 0 := by
                  obtain ⟨G', g', e, _, _, hg3⟩ := hlast'
                  intro z hz
                  rw [e] at hz
                  simp at hz
                  rw [← hz]; exact hg3 rfl
                have hcnt := fits_count _ (b'.map Node.op) y.op (by simpa using hf6) hlast2
                have hgl : c.ns.getLast? = some y := by
                  rw [hdec]
                  have : (pre ++ a) ++ n :: b'.concat y = (pre ++ a ++ [n] ++ b') ++ [y] := by simp
                  rw [this, List.getLast?_append]; simp
                obtain ⟨m0, hm0⟩ : ∃ m0, c.ns.head? = some m0 := by
                  cases hc : c.ns with
                  | nil => exact absurd hc hne
                  | cons m0 _ => exact ⟨m0, rfl⟩
                have h4 := hng y (by rw [hgl]; rfl) m0 (by rw [hm0]; rfl)
                have h5 := h2 m0 (by rw [hm0]; rfl)
                rw [h5] at h4
                have h6 : numOut (c.ns.map Node.op) = numOut (pre.map Node.op) + numOut ([n].map Node.op) + numOut (b'.map Node.op) +
                    numOut ([y].map Node.op) := by
                  rw [hdec]
                  have : (pre ++ a) ++ n :: b'.concat y = pre ++ a ++ [n] ++ b' ++ [y] := by simp
                  rw [this]
                  simp only [List.map_append, numOut_append, ha0]
                  omega
                have h7 : numOut ([n].map Node.op) ≤ 1 := by
                  simp only [numOut]
                  exact (List.length_filter_le _ _)
                have h8 : numOut ([y].map Node.op) + y.op.inplace.toNat = 1 := by
                  cases hy : y.op.inplace <;> simp [numOut, hy]
                rw [List.map_append, numOut_append, ha0] at h3
                simp only [List.length_map, List.length_cons] at hcnt hk
                have h9 : (false : Bool).toNat = 0 := rfl
                rw [h9] at h4
                have : k = numOut (pre.map Node.op) := by omega
                omega)
        (fun x hx => (hf1 x.op (List.mem_map.mpr ⟨x, hx, rfl⟩)).1) hb1
        (by
          intro h
          obtain ⟨g0, bb, gs, e, h1⟩ := hfirst h
          simp only [List.cons.injEq, Prod.mk.injEq] at e
          obtain ⟨⟨rfl, rfl⟩, _⟩ := e
          exact h1) hI
      refine ⟨l', ?_, ?_⟩
      · have : groupsLoop c k ((g, bs) :: (g2, bs2) :: rest) ⟨c.ns.length, input, input, ou, s⟩ =
            (groupsLoop c (k + 1) ((g2, bs2) :: rest) ⟨c.ns.length, input, input, ou, s⟩).bind (groupStep c k g bs) := rfl
        rw [this, hl]
        exact hl'
      · have hv : value (a ++ [n]) (value b (s.mem input.id)) = value cns (s.mem input.id) := by
          rw [← value_append, he]; simp
        rw [hv] at hI'
        exact hI'

/-- The conditions on a composition. -/
structure CompOk (ns : List (Node V)) : Prop where
  two : 2 ≤ ns.length
  inplaceReq : ∀ n ∈ ns, n.op.inplace = true → (n.op.alignedOut = true → n.op.alignedIn = true) ∧ (n.op.contiguousOut = true → n.op.contiguousIn = true)
  noPool : ∀ n ∈ ns, n.op.inplace = true → n.op.usesPool = false
  safe : ∀ pre n post, ns = pre ++ n :: post → n.op.usesPool = true → pre = [] ∨ ((∀ m ∈ ns.head?, m.update = false) ∧
    (post = [] ∨ ((∀ m ∈ ns.head?, m.op.inplace = false) ∧ (pre.filter fun m => !m.op.inplace).length % 2 = 0)))
  head : ∀ n ∈ ns.head?, n.update = true → n.op.inplace = false

theorem good_comp (tol : Nat → Nat → Bool) (ns : List (Node V)) (hg : ∀ n ∈ ns, Good n) (K : CompOk ns) : Good (comp tol ns) := by
  intro operation i o s P
  rw [call_eq P]
  have hdiff : i.id ≠ o.id := by
    rcases P.sep with h | h
    · exact h
    · cases h
  have hnp : s.inPool i.id = false ∧ s.inPool o.id = false := by
    rcases P.pool with h | h
    · cases h
    · exact h
  have hlen := K.two
  obtain ⟨n0, mid, nl, rfl⟩ : ∃ n0 mid nl, ns = n0 :: (mid ++ [nl]) := by
    cases ns with
    | nil => simp at hlen
    | cons n0 t =>
      have ht : t ≠ [] := by rintro rfl; simp at hlen
      exact ⟨n0, t.dropLast, t.getLast ht, by rw [List.dropLast_concat_getLast ht]⟩
  have hgl : (n0 :: (mid ++ [nl])).getLast? = some nl := by
    rw [← List.cons_append, List.getLast?_append]; simp
  have hipl := K.inplaceReq nl (by simp)
  have hmap : (n0 :: (mid ++ [nl])).map Node.op = n0.op :: (mid.map Node.op ++ [nl.op]) := by simp
  obtain ⟨info, hinfo, J⟩ := getInfo_ok n0.op nl.op (mid.map Node.op) ((n0 :: (mid ++ [nl])).map Node.sh) i o true (by simp)
    (fun _ => P.ial.1) (fun _ => P.ial.2) (fun _ => P.oal.1) (fun _ => P.oal.2) (fun h => (hipl h).1) (fun h => (hipl h).2)
  set c : Ctx V := ⟨n0 :: (mid ++ [nl]), o, true, operation, info.length, tol⟩ with hc
  have hupd : operation.isSome = true → n0.update = true := fun h => P.upd h
  have hS : ∀ b, s.inPool b = false → b < s.next → ¬ Scratch s.pool s.next b := by
    intro b h1 h2 h3
    rcases h3 with h3 | h3
    · obtain ⟨x, hx, e⟩ := List.mem_map.mp h3
      exact inPool_false_iff.mp h1 x hx e
    · omega
  have E : Env c i s.pool s.next := by
    refine ⟨hg, K.noPool, ?_, ?_, rfl, hdiff, P.oal, hS _ hnp.2 P.olt, hS _ hnp.1 P.ilt⟩
    · intro h n hn
      cases hn
      exact hupd h
    · intro n hn
      cases hn
      exact P.sh.symm
  have hsafe : Safe c := by
    intro pre n post h hu
    rcases K.safe pre n post h hu with h1 | ⟨h1, h2⟩
    · exact Or.inl h1
    · right
      refine ⟨?_, ?_⟩
      · have h3 := h1 n0 rfl
        cases hop : operation with
        | none => exact hop
        | some g =>
          have := hupd (by rw [hop]; rfl)
          rw [h3] at this; cases this
      · refine h2.imp id (fun h3 => ⟨h3.1, ?_⟩)
        have : numOut (pre.map Node.op) = (pre.filter fun m => !m.op.inplace).length := by
          simp only [numOut, List.filter_map, List.length_map]
          rfl
        rw [this]; exact h3.2
  obtain ⟨l, hl, I⟩ := groups_ok c i s E P.wf P.ial o (by simp [hc]) hsafe (by
      intro n hn m hm
      have hn' : nl = n := by
        have : c.ns.getLast? = some nl := hgl
        rw [this] at hn; simpa using hn
      have hm' : n0 = m := by
        have : c.ns.head? = some n0 := rfl
        rw [this] at hm; simpa using hm
      subst hn' hm'
      have := J.upper
      simp only [hc, hmap]
      exact this) info 0 [] c.ns (by simp only [hc]; rw [hmap]; exact J.fits) (by simp)
    (by simp [numOut]) J.buf (by simp [hc]) (by simp) J.last (by
      intro _
      obtain ⟨g, b, gs, e, _, _, h3, h4⟩ := J.first
      exact ⟨g, b, gs, e, h3, fun h => h4 (K.head n0 rfl (hupd h))⟩)
  have hio := I.kind0 rfl
  refine ⟨l.s, ?_, ?_, ?_, I.wf, I.next, ?_, ?_, fun h => by cases h⟩
  · have hp : (i.id != o.id) = true := by simpa using hdiff
    simp only [comp, compDirect, hp, hmap, hinfo, bind, Except.bind, if_neg hdiff]
    have : groupsLoop c 0 info ⟨c.ns.length, i, i, o, s⟩ = .ok l := hl
    simp only [hc] at this
    rw [this]
    simp
  · have h1 := I.val
    rw [hio, if_pos rfl] at h1
    exact h1
  · intro b hb hlt hp
    refine I.frame b (hS b ?_ hlt) hb
    rcases hp with h | h
    · cases h
    · exact h
  · intro x hx
    exact I.keep x hx (fun h => inPool_false_iff.mp hnp.2 x hx (h.trans hio))
  · intro y hy
    rcases I.scr y hy with h | h
    · obtain ⟨x, hx, e⟩ := List.mem_map.mp h
      exact Or.inl ⟨x, hx, e⟩
    · exact Or.inr h

/-! ### Sums -/

theorem firstFalse_some : ∀ (ts : List (Node V)) (i : Nat), firstFalse ts = some i →
    ∃ t, ts[i]? = some t ∧ t.update = false := by
  intro ts
  induction ts with
  | nil => intro i h; simp [firstFalse] at h
  | cons t ts ih =>
    intro i h
    unfold firstFalse at h
    split at h
    · cases hq : firstFalse ts with
      | none => rw [hq] at h; simp at h
      | some j =>
        rw [hq] at h
        simp at h
        subst h
        obtain ⟨t', h1, h2⟩ := ih j hq
        exact ⟨t', by simpa using h1, h2⟩
    · rename_i hu
      simp at h
      subst h
      exact ⟨t, rfl, by simpa using hu⟩

theorem firstFalse_none : ∀ (ts : List (Node V)), firstFalse ts = none → ∀ t ∈ ts, t.update = true := by
  intro ts
  induction ts with
  | nil => intro _ t h; simp at h
  | cons t ts ih =>
    intro h t' ht
    unfold firstFalse at h
    split at h
    · rename_i hu
      rcases List.mem_cons.mp ht with rfl | ht
      · exact hu
      · exact ih (by cases hq : firstFalse ts <;> simp_all) t' ht
    · cases h

/-- The schedule is a permutation of the operands; if no temporary buffer is needed, all the operands but the first one are
able to update their output. -/
theorem schedule_spec (ts : List (Node V)) :
    (schedule ts).1.Perm ts ∧ ((schedule ts).2 = false → ∀ t ∈ (schedule ts).1.tail, t.update = true) := by
  unfold schedule
  cases hf : firstFalse ts with
  | none =>
    exact ⟨List.Perm.refl _, fun _ t ht => firstFalse_none ts hf t (List.mem_of_mem_tail ht)⟩
  | some i =>
    obtain ⟨b, hb, hub⟩ := firstFalse_some ts i hf
    cases ts with
    | nil => simp at hb
    | cons a rest =>
      have hsw : swapFirst (a :: rest) i = ((a :: rest).set 0 b).set i a := by
        simp [swapFirst, hb]
      simp only [hsw]
      cases i with
      | zero =>
        have hab : a = b := by simpa using hb
        subst hab
        refine ⟨by simp, ?_⟩
        intro hc
        simp only [decide_eq_false_iff_not, not_lt] at hc
        have : (rest.filter (fun t => !t.update)).length = 0 := by
          simp only [countFalse, List.filter_cons, hub, Bool.not_false, if_true, List.length_cons] at hc
          omega
        simp only [List.length_eq_zero_iff, List.filter_eq_nil_iff] at this
        intro t ht
        simpa using this t (by simpa using ht)
      | succ j =>
        have hb' : rest[j]? = some b := by simpa using hb
        simp only [List.set_cons_zero, List.set_cons_succ]
        obtain ⟨hj, hbj⟩ := List.getElem?_eq_some_iff.mp hb'
        have hdec : rest = rest.take j ++ b :: rest.drop (j + 1) := by
          rw [← hbj]; simp
        have hset : rest.set j a = rest.take j ++ a :: rest.drop (j + 1) := by
          rw [List.set_eq_take_append_cons_drop, if_pos hj]
        refine ⟨?_, ?_⟩
        · rw [hset]
          conv_rhs => rw [hdec]
          calc (b :: (rest.take j ++ a :: rest.drop (j + 1))).Perm (b :: a :: (rest.take j ++ rest.drop (j + 1))) :=
                List.perm_middle.cons b
            _ |>.Perm (a :: b :: (rest.take j ++ rest.drop (j + 1))) := List.Perm.swap _ _ _
            _ |>.Perm (a :: (rest.take j ++ b :: rest.drop (j + 1))) := (List.perm_middle.cons a).symm
        · intro hc
          simp only [decide_eq_false_iff_not, not_lt] at hc
          -- a is updating, since the first False is further
          have hua : a.update = true := by
            by_contra hh
            have : firstFalse (a :: rest) = some 0 := by simp [firstFalse, hh]
            rw [this] at hf; simp at hf
          have hcount : ((rest.take j).filter (fun t => !t.update)).length = 0 ∧
              ((rest.drop (j + 1)).filter (fun t => !t.update)).length = 0 := by
            simp only [countFalse, List.filter_cons, hua, Bool.not_true, Bool.false_eq_true, if_false] at hc
            rw [hdec] at hc
            simp only [List.filter_append, List.filter_cons, hub, Bool.not_false, if_true, List.length_append,
              List.length_cons] at hc
            omega
          simp only [List.length_eq_zero_iff, List.filter_eq_nil_iff] at hcount
          intro t ht
          simp only [List.tail_cons] at ht
          rw [hset] at ht
          rcases List.mem_append.mp ht with ht | ht
          · simpa using hcount.1 t ht
          · rcases List.mem_cons.mp ht with rfl | ht
            · exact hua
            · simpa using hcount.2 t ht

/-- Accumulation of the results of the operands on the value v. -/
def fold (g : V → V → V) (v : V) (ts : List (Node V)) (acc : V) : V := ts.foldl (fun a t => g a (t.op.f v)) acc

/-- The accumulation does not depend on the order. -/
theorem fold_perm (g : V → V → V) (hc : ∀ a b, g a b = g b a) (ha : ∀ a b c, g (g a b) c = g a (g b c)) (v : V)
    (t t' : Node V) (ts ts' : List (Node V)) (h : (t :: ts).Perm (t' :: ts')) :
    fold g v ts (t.op.f v) = fold g v ts' (t'.op.f v) := by
  let step : Option V → Node V → Option V := fun o t => match o with
    | none => some (t.op.f v)
    | some a => some (g a (t.op.f v))
  have key : ∀ (l : List (Node V)) (a : V), l.foldl step (some a) = some (fold g v l a) := by
    intro l
    induction l with
    | nil => intro a; rfl
    | cons x l ih => intro a; exact ih _
  have hcomm : RightCommutative step := ⟨by
    intro o x y
    cases o with
    | none => simp only [step]; rw [hc]
    | some a => simp only [step]; rw [ha, hc (x.op.f v), ← ha]⟩
  have := h.foldl_eq (f := step) (b := none)
  simp only [List.foldl_cons] at this
  have h1 : step none t = some (t.op.f v) := rfl
  have h2 : step none t' = some (t'.op.f v) := rfl
  rw [h1, h2, key, key] at this
  exact Option.some.inj this

/-- How the pool may change. -/
structure Rel (up : Bool) (s s' : St V) : Prop where
  wf : WF s'
  next : s.next ≤ s'.next
  keep : ∀ x ∈ s.pool, ∃ y ∈ s'.pool, y.id = x.id
  new : ∀ y ∈ s'.pool, (∃ x ∈ s.pool, x.id = y.id) ∨ s.next ≤ y.id
  same : up = false → s'.pool = s.pool ∧ s'.next = s.next

theorem Rel.trans {up : Bool} {s s' s'' : St V} (h : Rel up s s') (k : Rel up s' s'') : Rel up s s'' := by
  refine ⟨k.wf, h.next.trans k.next, ?_, ?_, fun hu => ⟨(k.same hu).1.trans (h.same hu).1, (k.same hu).2.trans (h.same hu).2⟩⟩
  · intro x hx
    obtain ⟨y, hy, e⟩ := h.keep x hx
    obtain ⟨z, hz, e'⟩ := k.keep y hy
    exact ⟨z, hz, e'.trans e⟩
  · intro y hy
    rcases k.new y hy with ⟨x, hx, e⟩ | h1
    · rcases h.new x hx with ⟨w, hw, e'⟩ | h1
      · exact Or.inl ⟨w, hw, e'.trans e⟩
      · exact Or.inr (by omega)
    · exact Or.inr (h.next.trans h1)

theorem Rel.notIn {up : Bool} {s s' : St V} (h : Rel up s s') {b : Nat} (hl : b < s.next) (hb : s.inPool b = false) : s'.inPool b = false := by
  apply inPool_false
  intro y hy
  rcases h.new y hy with ⟨x, hx, e⟩ | h1
  · rw [← e]; exact inPool_false_iff.mp hb x hx
  · omega

theorem Post.rel {n : Node V} {g : Option (V → V → V)} {i o : Arr} {s s' : St V} (h : Post n g i o s s') {up : Bool}
    (hu : n.op.usesPool = true → up = true) : Rel up s s' :=
  ⟨h.wf, h.next, h.keep, h.new, fun h1 => h.same (by cases h2 : n.op.usesPool with
    | false => rfl
    | true => rw [hu h2] at h1; cases h1)⟩

theorem loop_ok (g : V → V → V) (x out : Arr) (buf : Option Arr) (v : V) (up : Bool) (hxo : x.id ≠ out.id) (hx : x.aligned = true ∧ x.contiguous = true)
    (hout : out.aligned = true ∧ out.contiguous = true)
    (hb : ∀ b ∈ buf, b.id ≠ x.id ∧ b.id ≠ out.id ∧ (b.aligned = true ∧ b.contiguous = true) ∧ b.sh = out.sh ∧ up = true) :
    ∀ (ts : List (Node V)) (s : St V), (∀ t ∈ ts, Good t ∧ t.sh = out.sh ∧ (t.op.usesPool = true → up = true)) →
      (buf = none → ∀ t ∈ ts, t.update = true) → WF s → x.id < s.next → out.id < s.next → (∀ b ∈ buf, b.id < s.next) →
      (up = false ∨ (s.inPool x.id = false ∧ s.inPool out.id = false)) →
      (∀ b ∈ buf, s.inPool b.id = false) → s.mem x.id = v →
      ∃ s', sumLoop g x out buf ts s = .ok s' ∧ s'.mem out.id = fold g v ts (s.mem out.id) ∧ Rel up s s' ∧
        ∀ z, z ≠ out.id → (∀ b ∈ buf, z ≠ b.id) → z < s.next → (up = false ∨ s.inPool z = false) → s'.mem z = s.mem z := by
  intro ts
  induction ts with
  | nil =>
    intro s _ _ W _ _ _ _ _ hv
    exact ⟨s, rfl, rfl, ⟨W, le_refl _, fun x hx => ⟨x, hx, rfl⟩, fun y hy => Or.inl ⟨y, hy, rfl⟩, fun _ => ⟨rfl, rfl⟩⟩, fun z _ _ _ _ => rfl⟩
  | cons t ts ih =>
    intro s ht hu W hxl hol hbl hp hpb hv
    obtain ⟨hgood, hsh, hup⟩ := ht t (by simp)
    have hpool : ∀ z, (up = false ∨ s.inPool z = false) → t.op.usesPool = false ∨ s.inPool z = false := by
      intro z hz
      rcases hz with h | h
      · left
        cases h2 : t.op.usesPool with
        | false => rfl
        | true => rw [hup h2] at h; cases h
      · exact Or.inr h
    have hpx : up = false ∨ s.inPool x.id = false := hp.imp id And.left
    have hpo : up = false ∨ s.inPool out.id = false := hp.imp id And.right
    cases htu : t.update with
    | true =>
      obtain ⟨s1, h1, Q⟩ := hgood (some g) x out s ⟨W, hx, hout, hsh.symm, hxl, hol, Or.inl hxo, by
        rcases hpool _ hpx with h | h
        · exact Or.inl h
        · rcases hpool _ hpo with h' | h'
          · exact Or.inl h'
          · exact Or.inr ⟨h, h'⟩, fun _ => htu⟩
      have R := Q.rel hup
      obtain ⟨s', e1, e2, e3, e4⟩ := ih s1 (fun t h => ht t (by simp [h])) (fun h t h' => hu h t (by simp [h'])) R.wf
        (lt_of_lt_of_le hxl R.next) (lt_of_lt_of_le hol R.next) (fun b h => lt_of_lt_of_le (hbl b h) R.next)
        (hp.imp id (fun h => ⟨R.notIn hxl h.1, R.notIn hol h.2⟩)) (fun b h => R.notIn (hbl b h) (hpb b h))
        (by rw [Q.frame x.id hxo hxl (hpool _ hpx), hv])
      refine ⟨s', ?_, ?_, R.trans e3, ?_⟩
      · unfold sumLoop
        simp only [htu, h1, bind, Except.bind]
        exact e1
      · rw [e2, Q.val, hv]; rfl
      · intro z hz hzb hzl hzp
        rw [e4 z hz hzb (lt_of_lt_of_le hzl R.next) (hzp.imp id (fun h => R.notIn hzl h)), Q.frame z hz hzl (hpool z hzp)]
    | false =>
      cases buf with
      | none =>
        have := hu rfl t (by simp)
        rw [htu] at this; cases this
      | some b =>
        obtain ⟨hbx, hbo, hba, hbs, hbu⟩ := hb b rfl
        obtain ⟨s1, h1, Q⟩ := hgood none x b s ⟨W, hx, hba, by rw [hsh, hbs], hxl, hbl b rfl, Or.inl (fun h => hbx h.symm), by
          rcases hpool _ hpx with h | h
          · exact Or.inl h
          · exact Or.inr ⟨h, hpb b rfl⟩, by simp⟩
        have R := Q.rel hup
        set s2 : St V := { s1 with mem := fun z => if z = out.id then g (s1.mem out.id) (s1.mem b.id) else s1.mem z } with hs2
        have R2 : Rel up s s2 := ⟨⟨R.wf.nodup, R.wf.lt, R.wf.al⟩, R.next, R.keep, R.new, R.same⟩
        obtain ⟨s', e1, e2, e3, e4⟩ := ih s2 (fun t h => ht t (by simp [h])) (fun h t h' => hu h t (by simp [h'])) R2.wf
          (lt_of_lt_of_le hxl R2.next) (lt_of_lt_of_le hol R2.next) (fun b h => lt_of_lt_of_le (hbl b h) R2.next)
          (hp.imp id (fun h => ⟨R2.notIn hxl h.1, R2.notIn hol h.2⟩)) (fun b h => R2.notIn (hbl b h) (hpb b h))
          (by
            simp only [hs2, if_neg hxo]
            rw [Q.frame x.id (fun h => hbx h.symm) hxl (hpool _ hpx), hv])
        refine ⟨s', ?_, ?_, R2.trans e3, ?_⟩
        · unfold sumLoop
          simp only [htu, h1, bind, Except.bind, Except.map]
          exact e1
        · rw [e2]
          simp only [hs2, if_true, Q.val, combine, hv]
          rw [Q.frame out.id (fun h => hbo h.symm) hol (hpool _ hpo)]
          rfl
        · intro z hz hzb hzl hzp
          rw [e4 z hz hzb (lt_of_lt_of_le hzl R2.next) (hzp.imp id (fun h => R2.notIn hzl h))]
          simp only [hs2, if_neg hz]
          exact Q.frame z (hzb b rfl) hzl (hpool z hzp)

theorem good_sum (tol : Nat → Nat → Bool) (g : V → V → V) (hc : ∀ a b, g a b = g b a) (ha : ∀ a b c, g (g a b) c = g a (g b c)) (n : Node V)
    (ns : List (Node V)) (hns : ns ≠ []) (hg : ∀ m ∈ n :: ns, Good m) (hsh : ∀ m ∈ ns, m.sh = n.sh) : Good (sum tol g (n :: ns)) := by
  intro operation x out s P
  rw [call_eq P]
  have hop : operation = none := by
    cases h : operation with
    | none => rfl
    | some _ =>
      have := P.upd (by rw [h]; rfl)
      cases this
  subst hop
  have hxo : x.id ≠ out.id := by
    rcases P.sep with h | h
    · exact h
    · cases h
  obtain ⟨hperm, hneed⟩ := schedule_spec (n :: ns)
  have hlen : ¬ (n :: ns).length ≤ 1 := by
    have := List.length_pos_iff.mpr hns
    simp; omega
  set up := (sum tol g (n :: ns)).op.usesPool with hupdef
  have hup : up = ((schedule (n :: ns)).2 || (n :: ns).any fun n => n.op.usesPool) := rfl
  have hallsh : ∀ m ∈ n :: ns, m.sh = out.sh := by
    intro m hm
    have : out.sh = n.sh := P.sh
    rcases List.mem_cons.mp hm with rfl | hm
    · exact this.symm
    · rw [this]; exact hsh m hm
  have huses : ∀ m ∈ n :: ns, m.op.usesPool = true → up = true := by
    intro m hm h
    rw [hup, Bool.or_eq_true]
    exact Or.inr (List.any_eq_true.mpr ⟨m, hm, h⟩)
  have hres : ∀ (t0 : Node V) (rest : List (Node V)), (t0 :: rest).Perm (n :: ns) →
      fold g (s.mem x.id) rest (t0.op.f (s.mem x.id)) = (sum tol g (n :: ns)).op.f (s.mem x.id) := by
    intro t0 rest h
    rw [fold_perm g hc ha _ _ _ _ _ h]
    simp only [sum, List.foldl_map]
    rfl
  have hpx : up = false ∨ s.inPool x.id = false := P.pool.imp id And.left
  have hpo : up = false ∨ s.inPool out.id = false := P.pool.imp id And.right
  show ∃ s', sumDirect tol g (n :: ns) x out s = .ok s' ∧ _
  unfold sumDirect
  rw [if_neg hlen]
  cases hs : schedule (n :: ns) with
  | mk l need =>
    rw [hs] at hperm hneed hup
    cases l with
    | nil => exact absurd hperm.length_eq (by simp)
    | cons t0 rest =>
      have hm0 : ∀ u ∈ t0 :: rest, u ∈ n :: ns := fun u hu => hperm.mem_iff.mp hu
      have h0 := hm0 t0 (by simp)
      have hrest : ∀ t ∈ rest, Good t ∧ t.sh = out.sh ∧ (t.op.usesPool = true → up = true) := fun t h =>
        have := hm0 t (by simp [h])
        ⟨hg t this, hallsh t this, huses t this⟩
      have hpool0 : ∀ z, (up = false ∨ s.inPool z = false) → t0.op.usesPool = false ∨ s.inPool z = false := by
        intro z hz
        rcases hz with h | h
        · left
          cases h2 : t0.op.usesPool with
          | false => rfl
          | true => rw [huses t0 h0 h2] at h; cases h
        · exact Or.inr h
      obtain ⟨s1, h1, Q⟩ := hg t0 h0 none x out s ⟨P.wf, P.ial, P.oal, (hallsh t0 h0).symm, P.ilt, P.olt, Or.inl hxo, by
        rcases hpool0 _ hpx with h | h
        · exact Or.inl h
        · rcases hpool0 _ hpo with h' | h'
          · exact Or.inl h'
          · exact Or.inr ⟨h, h'⟩, by simp⟩
      have R := Q.rel (huses t0 h0)
      have hx1 : s1.mem x.id = s.mem x.id := Q.frame x.id hxo P.ilt (hpool0 _ hpx)
      have hpo1 : up = false ∨ (s1.inPool x.id = false ∧ s1.inPool out.id = false) :=
        P.pool.imp id (fun h => ⟨R.notIn P.ilt h.1, R.notIn P.olt h.2⟩)
      cases need with
      | false =>
        obtain ⟨s', e1, e2, e3, e4⟩ := loop_ok g x out none (s.mem x.id) up hxo P.ial P.oal (by simp) rest s1 hrest (fun _ u hu => hneed rfl u hu) R.wf
          (lt_of_lt_of_le P.ilt R.next) (lt_of_lt_of_le P.olt R.next) (by simp) hpo1 (by simp) hx1
        have RR := R.trans e3
        refine ⟨s', ?_, ?_, ?_, RR.wf, RR.next, RR.keep, RR.new, RR.same⟩
        · simp only [h1, bind, Except.bind, Bool.false_eq_true, if_false]
          exact e1
        · rw [e2, Q.val]
          exact hres t0 rest hperm
        · intro b hb hbl hbp
          rw [e4 b hb (by simp) (lt_of_lt_of_le hbl R.next) (hbp.imp id (fun h => R.notIn hbl h)), Q.frame b hb hbl (hpool0 b hbp)]
      | true =>
        have hut : up = true := by rw [hup]; rfl
        obtain ⟨e, s2, he, heal, hes, hsm, W2, hnx, helt, hepool, hsub, hkeep, hesrc⟩ := extract_wf tol s1 out.sh.nbytes false false R.wf
        have hv := view_sh e out.sh heal.2 hes
        obtain ⟨hxp, hop⟩ : s1.inPool x.id = false ∧ s1.inPool out.id = false := by
          rcases hpo1 with h | h
          · rw [hut] at h; cases h
          · exact h
        have hne : ∀ z, z < s1.next → s1.inPool z = false → z ≠ e.id := by
          intro z hz hzp h
          rcases hesrc with ⟨y, hy, ey⟩ | h'
          · exact inPool_false_iff.mp hzp y hy (ey.trans h.symm)
          · omega
        have hin2 : ∀ z, s1.inPool z = false → s2.inPool z = false := fun z hz =>
          inPool_false (fun y hy => inPool_false_iff.mp hz y (hsub y hy))
        have hxl := lt_of_lt_of_le P.ilt R.next
        have hol := lt_of_lt_of_le P.olt R.next
        obtain ⟨s', e1, e2, e3, e4⟩ := loop_ok g x out (some { e with sh := out.sh }) (s.mem x.id) up hxo P.ial P.oal
          (by
            intro b hb
            cases hb
            exact ⟨fun h => hne _ hxl hxp h.symm, fun h => hne _ hol hop h.symm, heal, rfl, hut⟩) rest s2 hrest (by simp) W2
          (lt_of_lt_of_le hxl hnx) (lt_of_lt_of_le hol hnx) (by intro b hb; cases hb; exact helt) (Or.inr ⟨hin2 _ hxp, hin2 _ hop⟩)
          (by intro b hb; cases hb; exact inPool_false hepool) (by rw [hsm]; exact hx1)
        have heNot := inPool_false_iff.mp (e3.notIn helt (inPool_false hepool))
        obtain ⟨s3, hadd, h3m, h3n, W3, h3p⟩ := add_wf (s := s') (v := e) e3.wf heNot heal (lt_of_lt_of_le helt e3.next)
        refine ⟨s3, ?_, ?_, ?_, W3, ?_, ?_, ?_, fun h => ?_⟩
        · simp only [h1, bind, Except.bind, if_true, he, hv, e1]
          exact hadd
        · rw [h3m, e2, hsm, Q.val]
          exact hres t0 rest hperm
        · intro b hb hbl hbp
          have hbp' : s.inPool b = false := by
            rcases hbp with h | h
            · rw [← hupdef, hut] at h; cases h
            · exact h
          have hb1 := R.notIn hbl hbp'
          have hbl1 := lt_of_lt_of_le hbl R.next
          rw [h3m, e4 b hb (by intro b' h; cases h; exact hne b hbl1 hb1) (lt_of_lt_of_le hbl1 hnx) (Or.inr (hin2 b hb1)), hsm,
            Q.frame b hb hbl (Or.inr hbp')]
        · rw [h3n]; exact R.next.trans (hnx.trans e3.next)
        · intro y hy
          obtain ⟨y1, hy1, ey1⟩ := R.keep y hy
          by_cases hye : y1.id = e.id
          · exact ⟨e, (h3p e).mpr (Or.inl rfl), hye.symm.trans ey1⟩
          · obtain ⟨y2, hy2, ey2⟩ := e3.keep y1 (hkeep y1 hy1 hye)
            exact ⟨y2, (h3p y2).mpr (Or.inr hy2), ey2.trans ey1⟩
        · intro y hy
          have h1e : (∃ x ∈ s.pool, x.id = e.id) ∨ s.next ≤ e.id := by
            rcases hesrc with ⟨z, hz, ez⟩ | h
            · rw [← ez]; exact R.new z hz
            · exact Or.inr (R.next.trans h)
          rcases (h3p y).mp hy with rfl | hy
          · exact h1e
          · rcases e3.new y hy with ⟨z, hz, ez⟩ | h
            · rw [← ez]; exact R.new z (hsub z hz)
            · exact Or.inr (R.next.trans (hnx.trans h))
        · rw [← hupdef, hut] at h; cases h

/-! ### C116 -/

/-- The expressions for which the evaluation is proved, and their meaning: the operators that are not made of operators; the compositions, the result
of which is that of the operands applied from the last one to the first one; the sums and element-wise products, the result of which is the
combination of the results of the operands. -/
inductive Built : Node V → (V → V) → Prop
  | leaf (op : Opd V) (update : Bool) (sh : Sh) (hp : op.usesPool = false)
      (hi : op.inplace = true → (op.alignedOut = true → op.alignedIn = true) ∧ (op.contiguousOut = true → op.contiguousIn = true)) :
      Built (leaf op update sh) op.f
  | comp (tol : Nat → Nat → Bool) (ns : List (Node V)) (F : Node V → V → V) (hb : ∀ n ∈ ns, Built n (F n)) (two : 2 ≤ ns.length)
      (safe : ∀ pre n post, ns = pre ++ n :: post → n.op.usesPool = true → pre = [] ∨ ((∀ m ∈ ns.head?, m.update = false) ∧
        (post = [] ∨ ((∀ m ∈ ns.head?, m.op.inplace = false) ∧ (pre.filter fun m => !m.op.inplace).length % 2 = 0))))
      (head : ∀ n ∈ ns.head?, n.update = true → n.op.inplace = false) :
      Built (comp tol ns) (fun v => ns.foldr F v)
  | sum (tol : Nat → Nat → Bool) (g : V → V → V) (hc : ∀ a b, g a b = g b a) (ha : ∀ a b c, g (g a b) c = g a (g b c)) (n : Node V) (ns : List (Node V))
      (F : Node V → V → V) (hb : ∀ m ∈ n :: ns, Built m (F m)) (hns : ns ≠ []) (hsh : ∀ m ∈ ns, m.sh = n.sh) :
      Built (sum tol g (n :: ns)) (fun v => (ns.map fun m => F m v).foldl g (F n v))

theorem built_ok {n : Node V} {F : V → V} (h : Built n F) : Good n ∧ n.op.f = F ∧
    (n.op.inplace = true → ((n.op.alignedOut = true → n.op.alignedIn = true) ∧ (n.op.contiguousOut = true → n.op.contiguousIn = true)) ∧
      n.op.usesPool = false) := by
  induction h with
  | leaf op update sh hp hi => exact ⟨good_leaf op update sh hp, rfl, fun h => ⟨hi h, hp⟩⟩
  | comp tol ns F hb two safe head ih =>
    refine ⟨good_comp tol ns (fun n hn => (ih n hn).1) ⟨two, fun n hn h => ((ih n hn).2.2 h).1, fun n hn h => ((ih n hn).2.2 h).2, safe, head⟩, ?_,
      fun h => by cases h⟩
    funext v
    have : ∀ l : List (Node V), (∀ n ∈ l, n.op.f = F n) → l.foldr (fun n x => n.op.f x) v = l.foldr F v := by
      intro l
      induction l with
      | nil => intro _; rfl
      | cons a l ihl =>
        intro h
        simp only [List.foldr_cons]
        rw [ihl (fun n hn => h n (by simp [hn])), h a (by simp)]
    exact this ns (fun n hn => (ih n hn).2.1)
  | sum tol g hc ha n ns F hb hns hsh ih =>
    refine ⟨good_sum tol g hc ha n ns hns (fun m hm => (ih m hm).1) hsh, ?_, fun h => by cases h⟩
    funext v
    simp only [Nested.sum]
    rw [(ih n (by simp)).2.1]
    congr 1
    apply List.map_congr_left
    intro m hm
    rw [(ih m (by simp [hm])).2.1]

/-- C116: the value of an expression of sums, element-wise products and compositions, nested in any way, is what its operands compute; the input and
the other arrays of the user are not modified; the input and output are not left in the pool. Partial: some operands take buffers from the pool, namely the
sums of several operands that are not able to update their output, and the operands made of compositions. In a composition, they are the first operand, or
the last one, or they come after an even number of operands that are not able to work in place, the first operand being one of them (see
C116_middle_fails for an odd number). The arrays and the buffers are aligned and contiguous; the output is not the input. -/
theorem C116_nested_partial (n : Node V) (F : V → V) (h : Built n F) (x out : Arr) (s : St V) (R : Ready s x out) (hxo : x.id ≠ out.id)
    (hx : x.aligned = true ∧ x.contiguous = true) (hout : out.aligned = true ∧ out.contiguous = true) (hsh : out.sh = n.sh)
    (hp : ∀ b ∈ s.pool, b.aligned = true ∧ b.contiguous = true) :
    ∃ s', n.call none x out s = .ok s' ∧ s'.mem out.id = F (s.mem x.id) ∧ s'.mem x.id = s.mem x.id ∧
      (∀ z, z ≠ out.id → z ∉ s.pool.map Arr.id → z < s.next → s'.mem z = s.mem z) ∧ (∀ b ∈ s'.pool, b.id ≠ x.id ∧ b.id ≠ out.id) := by
  obtain ⟨hg, hf, _⟩ := built_ok h
  have hnp : ∀ z, z ∉ s.pool.map Arr.id → s.inPool z = false := fun z hz => inPool_false (fun y hy he => hz (List.mem_map.mpr ⟨y, hy, he⟩))
  obtain ⟨s', h1, Q⟩ := hg none x out s ⟨⟨R.nodup, R.lt, hp⟩, hx, hout, hsh, R.inp.2, R.out.2, Or.inl hxo, Or.inr ⟨hnp _ R.inp.1, hnp _ R.out.1⟩, by simp⟩
  have RR : Rel true s s' := Q.rel (fun _ => rfl)
  refine ⟨s', h1, ?_, Q.frame x.id hxo R.inp.2 (Or.inr (hnp _ R.inp.1)), fun z hz hzp hzl => Q.frame z hz hzl (Or.inr (hnp z hzp)), ?_⟩
  · rw [Q.val, hf]; rfl
  · intro b hb
    exact ⟨inPool_false_iff.mp (RR.notIn R.inp.2 (hnp _ R.inp.1)) b hb, inPool_false_iff.mp (RR.notIn R.out.2 (hnp _ R.out.1)) b hb⟩

/-- An operand that is not able to work in place nor to update its output: adds n. -/
def plus (n : Int) : Node Int := leaf (opOut n) false sh3

/-- An operand that is able to update its output: adds n. -/
def plusUp (n : Int) : Node Int := leaf (opOut n) true sh3

/-- An operand that works in place: multiplies by n. -/
def times (n : Int) : Node Int := leaf (opIn n) false sh3

/-- x + 3 applied after 2x applied after x + 7, the first one being able to update its output. -/
def inner : Node Int := comp noTol [plusUp 3, times 2, plus 7]

/-- A sum of three operands: x + 2, the composition above, and 4x. -/
def outer : Node Int := sum noTol (· + ·) [plus 2, inner, times 4]

/-- A composition, the first, third and last operands of which take buffers from the pool. -/
def nested : Node Int := comp noTol [outer, plus 5, outer, times 6, sum noTol (· * ·) [plus 2, plus 3]]

theorem built_plus (n : Int) : Built (plus n) (fun x => x + n) := Built.leaf (opOut n) false sh3 rfl (fun h => by cases h)

theorem built_plusUp (n : Int) : Built (plusUp n) (fun x => x + n) := Built.leaf (opOut n) true sh3 rfl (fun h => by cases h)

theorem built_times (n : Int) : Built (times n) (fun x => n * x) := Built.leaf (opIn n) false sh3 rfl (fun _ => ⟨id, id⟩)


theorem built_f {n : Node V} (h : ∃ F, Built n F) : Built n n.op.f := by
  obtain ⟨F, hF⟩ := h
  rw [(built_ok hF).2.1]
  exact hF

/-- Hypotheses of C116_nested_partial: the expression above is built from sums, products and compositions. The input is 5: the innermost
product is (5+2)*(5+3) = 56, then 6*56 = 336; the sum is (336+2) + (2*(336+7)+3) + 4*336 = 2371, then 2376, and the same sum again. -/
example : Built nested nested.op.f ∧ Ready mem0 (arr 0) (arr 1) ∧ (arr 1).sh = nested.sh ∧ (∀ b ∈ mem0.pool, b.aligned = true ∧ b.contiguous = true) ∧
    outer.op.usesPool = true ∧ outcome (nested.call none (arr 0) (arr 1) mem0) = .ok (5, 16651) := by
  have h1 : Built inner inner.op.f := built_f ⟨_, Built.comp noTol _ (fun n => n.op.f) (by
      intro n hn
      simp only [List.mem_cons, List.not_mem_nil, or_false] at hn
      rcases hn with rfl | rfl | rfl
      · exact built_plusUp 3
      · exact built_times 2
      · exact built_plus 7) (by simp) (by
      intro pre n post h hu
      have : n ∈ [plusUp 3, times 2, plus 7] := by rw [h]; simp
      simp only [List.mem_cons, List.not_mem_nil, or_false] at this
      rcases this with rfl | rfl | rfl <;> cases hu) (by
      intro n hn _
      cases hn
      rfl)⟩
  have h2 : Built outer outer.op.f := built_f ⟨_, Built.sum noTol (· + ·) (by intros; omega) (by intros; omega) (plus 2) [inner, times 4] (fun n => n.op.f) (by
      intro n hn
      simp only [List.mem_cons, List.not_mem_nil, or_false] at hn
      rcases hn with rfl | rfl | rfl
      · exact built_plus 2
      · exact h1
      · exact built_times 4) (by simp) (by
      intro n hn
      simp only [List.mem_cons, List.not_mem_nil, or_false] at hn
      rcases hn with rfl | rfl <;> rfl)⟩
  have h3 : Built (sum noTol (· * ·) [plus 2, plus 3]) (sum noTol (· * ·) [plus 2, plus 3] : Node Int).op.f := built_f ⟨_, Built.sum noTol (· * ·)
      (fun a b => Int.mul_comm a b) (fun a b c => Int.mul_assoc a b c) (plus 2) [plus 3] (fun n => n.op.f) (by
      intro n hn
      simp only [List.mem_cons, List.not_mem_nil, or_false] at hn
      rcases hn with rfl | rfl
      · exact built_plus 2
      · exact built_plus 3) (by simp) (by
      intro n hn
      simp only [List.mem_cons, List.not_mem_nil, or_false] at hn
      subst hn
      rfl)⟩
  refine ⟨built_f ⟨_, Built.comp noTol _ (fun n => n.op.f) (by
      intro n hn
      simp only [List.mem_cons, List.not_mem_nil, or_false] at hn
      rcases hn with rfl | rfl | rfl | rfl | rfl
      · exact h2
      · exact built_plus 5
      · exact h2
      · exact built_times 6
      · exact h3) (by simp) (by
      intro pre n post h hu
      match pre, h with
      | [], _ => exact Or.inl rfl
      | [_], h => simp only [List.cons_append, List.nil_append, List.cons.injEq] at h; rw [← h.2.1] at hu; cases hu
      | [_, _], h =>
        simp only [List.cons_append, List.nil_append, List.cons.injEq] at h
        obtain ⟨rfl, rfl, rfl, _⟩ := h
        exact Or.inr ⟨fun m hm => by cases hm; rfl, Or.inr ⟨fun m hm => by cases hm; rfl, rfl⟩⟩
      | [_, _, _], h => simp only [List.cons_append, List.nil_append, List.cons.injEq] at h; rw [← h.2.2.2.1] at hu; cases hu
      | [_, _, _, _], h =>
        simp only [List.cons_append, List.nil_append, List.cons.injEq] at h
        exact Or.inr ⟨fun m hm => by cases hm; rfl, Or.inl h.2.2.2.2.2.symm⟩
      | _ :: _ :: _ :: _ :: _ :: _, h => simp at h) (by
      intro n hn hu
      cases hn
      cases hu)⟩, ⟨by decide, by simp [mem0, arr], by simp [mem0, arr], by simp [mem0, arr]⟩, rfl, by simp [mem0, arr], rfl, by decide +kernel⟩

/-- An operand that adds n, whatever the arrays that it is given, but does not have the flag inplace. -/
def plusAny (n : Int) : Node Int := leaf { opOut n with junk := fun x => x + n } false sh3

theorem built_plusAny (n : Int) : Built (plusAny n) (fun x => x + n) :=
  Built.leaf { opOut n with junk := fun x => x + n } false sh3 rfl (fun h => by cases h)

/-- C116 fails for a sum between two operands of a composition, as in `A * (B + C + D) * E`: one operand comes before it. The intermediate result of E is stored in the output, that is
then set in the pool, from which the sum takes it as a temporary buffer; D is applied to the result of C. Here with x + 1, x + 2, x + 3, x + 4 and
x + 5, and an empty pool: the result is 42 instead of 40 for an input of 5. -/
theorem C116_middle_fails : ∃ (A B C D E : Node Int) (fA fB fC fD fE : Int → Int) (x out : Arr) (s s' : St Int), Built A fA ∧ Built B fB ∧ Built C fC ∧
    Built D fD ∧ Built E fE ∧ Built (sum noTol (· + ·) [B, C, D]) (fun v => fB v + fC v + fD v) ∧ Ready s x out ∧ x.id ≠ out.id ∧
    (x.aligned = true ∧ x.contiguous = true) ∧ (out.aligned = true ∧ out.contiguous = true) ∧ s.pool = [] ∧
    (comp noTol [A, sum noTol (· + ·) [B, C, D], E]).call none x out s = .ok s' ∧
    s'.mem out.id ≠ fA (fB (fE (s.mem x.id)) + fC (fE (s.mem x.id)) + fD (fE (s.mem x.id))) := by
  have h : Built (sum noTol (· + ·) [plusAny 2, plusAny 3, plusAny 4]) (fun v : Int => (v + 2) + (v + 3) + (v + 4)) := by
    have := Built.sum noTol (· + ·) (by intros; omega) (by intros; omega) (plusAny 2) [plusAny 3, plusAny 4] (fun n => n.op.f) (by
      intro n hn
      simp only [List.mem_cons, List.not_mem_nil, or_false] at hn
      rcases hn with rfl | rfl | rfl
      · exact built_plusAny 2
      · exact built_plusAny 3
      · exact built_plusAny 4) (by simp) (by
      intro n hn
      simp only [List.mem_cons, List.not_mem_nil, or_false] at hn
      rcases hn with rfl | rfl <;> rfl)
    exact this
  refine ⟨plusAny 1, plusAny 2, plusAny 3, plusAny 4, plusAny 5, _, _, _, _, _, arr 0, arr 1, { mem0 with pool := [], next := 2 }, _, built_plusAny 1,
    built_plusAny 2, built_plusAny 3, built_plusAny 4, built_plusAny 5, h, ⟨by simp, by simp, by simp [arr], by simp [arr]⟩, by decide, ⟨rfl, rfl⟩,
    ⟨rfl, rfl⟩, rfl, rfl, by decide +kernel⟩

end Verif.Nested
