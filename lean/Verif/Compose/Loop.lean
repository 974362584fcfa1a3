import Verif.Compose.Info

/- Auxiliary lemmas: the loops of `direct`. -/

namespace Verif.Compose

variable {V : Type}

theorem insertSorted_perm (v : Arr) : ∀ l : List Arr, (insertSorted v l).Perm (v :: l) := by
  intro l
  induction l with
  | nil => exact List.Perm.refl _
  | cons x xs ih =>
    unfold insertSorted
    split
    · exact List.Perm.refl _
    · exact (ih.cons x).trans (List.Perm.swap v x xs)

theorem popFirst_some (p : Arr → Bool) : ∀ (l : List Arr) (x : Arr) (r : List Arr), popFirst p l = some (x, r) →
    p x = true ∧ l.Perm (x :: r) := by
  intro l
  induction l with
  | nil => intro x r h; simp [popFirst] at h
  | cons a l ih =>
    intro x r h
    unfold popFirst at h
    split at h
    · rename_i hp
      simp only [Option.some.injEq, Prod.mk.injEq] at h
      obtain ⟨rfl, rfl⟩ := h
      exact ⟨hp, List.Perm.refl _⟩
    · cases hq : popFirst p l with
      | none => rw [hq] at h; simp at h
      | some y =>
        rw [hq] at h
        simp only [Option.map_some, Option.some.injEq, Prod.mk.injEq] at h
        obtain ⟨rfl, rfl⟩ := h
        obtain ⟨h1, h2⟩ := ih y.1 y.2 hq
        exact ⟨h1, (h2.cons a).trans (List.Perm.swap _ _ _)⟩

theorem popFirst_none (p : Arr → Bool) : ∀ (l : List Arr), popFirst p l = none → ∀ x ∈ l, p x = false := by
  intro l
  induction l with
  | nil => intro _ x hx; simp at hx
  | cons a l ih =>
    intro h x hx
    unfold popFirst at h
    split at h
    · cases h
    · rename_i hp
      rcases List.mem_cons.mp hx with rfl | hx
      · simpa using hp
      · refine ih ?_ x hx
        cases hq : popFirst p l with
        | none => rfl
        | some y => rw [hq] at h; simp at h

theorem inPool_false {s : St V} {b : Nat} (h : ∀ x ∈ s.pool, x.id ≠ b) : s.inPool b = false := by
  simp only [St.inPool, List.any_eq_false, beq_iff_eq]
  exact h

theorem add_ok {s : St V} {v : Arr} (h : ∀ x ∈ s.pool, x.id ≠ v.id) :
    add s v = .ok { s with pool := insertSorted v s.pool } := by
  unfold add
  rw [if_neg]
  simp only [Bool.not_eq_true, List.any_eq_false, beq_iff_eq]
  exact h

theorem remove_ok {s : St V} {v : Arr} (h : ∃ x ∈ s.pool, x.id = v.id) :
    ∃ r x, remove s v = .ok { s with pool := r } ∧ x.id = v.id ∧ s.pool.Perm (x :: r) := by
  unfold remove
  cases hq : popFirst (fun x => x.id == v.id) s.pool with
  | none =>
    obtain ⟨x, hx, e⟩ := h
    have := popFirst_none _ _ hq x hx
    simp [e] at this
  | some y =>
    obtain ⟨h1, h2⟩ := popFirst_some _ _ y.1 y.2 hq
    exact ⟨y.2, y.1, rfl, by simpa using h1, h2⟩

/-- What the operands compute together, the operands being applied from the last one to the first one. -/
def compose (ops : List (Opd V)) (v : V) : V := ops.foldr (fun o x => o.f x) v

theorem compose_append (a b : List (Opd V)) (v : V) : compose (a ++ b) v = compose a (compose b v) := by
  simp [compose, List.foldr_append]

/-- The value that is written, with or without an operation. -/
def combine (operation : Option (V → V → V)) (old new : V) : V :=
  match operation with
  | none => new
  | some g => g old new

theorem exec_ok (op : Opd V) (operation : Option (V → V → V)) (i o : Arr) (s : St V)
    (h1 : op.alignedIn = true → i.aligned = true) (h2 : op.contiguousIn = true → i.contiguous = true)
    (h3 : op.alignedOut = true → o.aligned = true) (h4 : op.contiguousOut = true → o.contiguous = true)
    (hsep : i.id ≠ o.id ∨ op.inplace = true) (hp : op.usesPool = false ∨ s.inPool i.id = false)
    (ho : op.usesPool = false ∨ s.inPool o.id = false) :
    ∃ s', exec op operation i o s = .ok s' ∧ s'.pool = s.pool ∧ s'.next = s.next ∧
      s'.mem o.id = combine operation (s.mem o.id) (op.f (s.mem i.id)) ∧
      ∀ b, b ≠ o.id → (op.usesPool = false ∨ s.inPool b = false) → s'.mem b = s.mem b := by
  unfold exec
  rw [if_neg]
  · refine ⟨_, rfl, rfl, rfl, ?_, ?_⟩
    · have hi : (if op.usesPool && s.inPool i.id then op.scribble (s.mem i.id) else s.mem i.id) = s.mem i.id := by
        rcases hp with hp | hp <;> simp [hp]
      have hs : ¬ (i.id = o.id ∧ op.inplace = false) := by
        rintro ⟨p, q⟩
        rcases hsep with h | h
        · exact h p
        · rw [h] at q; cases q
      have hq : (op.usesPool && s.inPool o.id) = false := by
        rcases ho with hp | hp <;> simp [hp]
      simp only [hi, hs, hq, if_false, if_true, combine]
      rfl
    · intro b hb h
      simp only [hb, if_false]
      rcases h with hp | hp <;> simp [hp]
  · simp only [Bool.or_eq_true, Bool.and_eq_true, Bool.not_eq_true', not_or, not_and, Bool.not_eq_false]
    exact ⟨⟨⟨h1, h3⟩, h2⟩, h4⟩

theorem get_ok (c : Ctx V) (hl : c.shs.length = c.ops.length) (pre b : List (Opd V)) (op : Opd V)
    (h : c.ops = pre ++ op :: b) :
    ∃ sh, c.get (pre.length + 1) = .ok (op, sh) ∧ c.shs[pre.length]? = some sh := by
  have h1 : c.ops[pre.length]? = some op := by rw [h]; simp
  have h2 : pre.length < c.shs.length := by rw [hl, h]; simp
  refine ⟨c.shs[pre.length], ?_, List.getElem?_eq_getElem h2⟩
  unfold Ctx.get
  simp only [h1, List.getElem?_eq_getElem h2]

theorem view_ok (ou : Arr) (sh : Sh)
    (h : (ou.contiguous = true ∧ sh.nbytes ≤ ou.sh.nbytes) ∨ sh = ou.sh) :
    ∃ o, view ou sh = .ok o ∧ o.id = ou.id ∧ o.aligned = ou.aligned ∧ o.contiguous = ou.contiguous := by
  unfold view
  by_cases hc : ou.contiguous = true
  · have : sh.nbytes ≤ ou.sh.nbytes := by
      rcases h with ⟨_, h⟩ | rfl
      · exact h
      · exact le_refl _
    rw [if_pos hc, if_pos this]
    exact ⟨_, rfl, rfl, rfl, rfl⟩
  · rcases h with ⟨h, _⟩ | rfl
    · exact absurd h hc
    · rw [if_neg hc, if_pos rfl]
      exact ⟨_, rfl, rfl, rfl, rfl⟩

theorem inplace_ok (c : Ctx V) (hl : c.shs.length = c.ops.length) : ∀ (n : Nat) (pre a b : List (Opd V)) (l : Loop V),
    c.ops = pre ++ a ++ b → a.length = n → l.rem = pre.length + n →
    (∀ x ∈ a, x.inplace = true ∧ (x.alignedIn = true → l.ou.aligned = true) ∧
      (x.contiguousIn = true → l.ou.contiguous = true) ∧ (x.alignedOut = true → l.ou.aligned = true) ∧
      (x.contiguousOut = true → l.ou.contiguous = true)) →
    l.i.id = l.ou.id → l.i.aligned = l.ou.aligned → l.i.contiguous = l.ou.contiguous →
    (∀ j sh, pre.length ≤ j → j < pre.length + n → c.shs[j]? = some sh →
      (l.ou.contiguous = true ∧ sh.nbytes ≤ l.ou.sh.nbytes) ∨ sh = l.ou.sh) →
    ((∀ x ∈ a, x.usesPool = false) ∨ l.s.inPool l.ou.id = false) →
    ∃ l', inplaceLoop c n l = .ok l' ∧ l'.rem = pre.length ∧ l'.i.id = l.ou.id ∧ l'.i.aligned = l.ou.aligned ∧
      l'.i.contiguous = l.ou.contiguous ∧ l'.iu = l.iu ∧ l'.ou = l.ou ∧ l'.s.pool = l.s.pool ∧
      l'.s.next = l.s.next ∧ l'.s.mem l.ou.id = compose a (l.s.mem l.ou.id) ∧
      ∀ b, b ≠ l.ou.id → ((∀ x ∈ a, x.usesPool = false) ∨ l.s.inPool b = false) → l'.s.mem b = l.s.mem b := by
  intro n
  induction n with
  | zero =>
    intro pre a b l h1 h2 h3 h4 h5 h6 h7 h8 h9
    have : a = [] := List.length_eq_zero_iff.mp h2
    subst this
    exact ⟨l, rfl, by simpa using h3, h5, h6, h7, rfl, rfl, rfl, rfl, rfl, fun b _ _ => rfl⟩
  | succ n ih =>
    intro pre a b l h1 h2 h3 h4 h5 h6 h7 h8 h9
    have ha : a ≠ [] := by rintro rfl; simp at h2
    obtain ⟨a', x, rfl⟩ : ∃ a' x, a = a' ++ [x] := ⟨a.dropLast, a.getLast ha, (List.dropLast_concat_getLast ha).symm⟩
    have hn : a'.length = n := by simpa using h2
    have hops : c.ops = (pre ++ a') ++ x :: b := by rw [h1]; simp
    obtain ⟨sh, hg, hsh⟩ := get_ok c hl (pre ++ a') b x hops
    have hrem : l.rem = (pre ++ a').length + 1 := by rw [h3]; simp [hn]; omega
    obtain ⟨o, ho, ho1, ho2, ho3⟩ := view_ok l.ou sh
      (h8 (pre ++ a').length sh (by simp) (by simp [hn]) hsh)
    obtain ⟨q1, q2, q3, q4, q5⟩ := h4 x (by simp)
    obtain ⟨s', hs, hs1, hs2, hs3, hs4⟩ := exec_ok x none l.i o l.s (fun h => by rw [h6]; exact q2 h)
      (fun h => by rw [h7]; exact q3 h) (fun h => by rw [ho2]; exact q4 h) (fun h => by rw [ho3]; exact q5 h)
      (Or.inr q1) (by
        rcases h9 with h | h
        · exact Or.inl (h x (by simp))
        · right; rw [h5]; exact h) (by
        rcases h9 with h | h
        · exact Or.inl (h x (by simp))
        · right; rw [ho1]; exact h)
    have hpool : ∀ b, s'.inPool b = l.s.inPool b := by intro b; simp [St.inPool, hs1]
    obtain ⟨l', e1, e2, e3, e4, e5, e6, e7, e8, e9, e10, e11⟩ := ih pre a' (x :: b)
      { l with rem := l.rem - 1, i := o, s := s' } (by rw [hops]) hn
      (by simp only; rw [h3]; omega) (fun y hy => h4 y (by simp [hy])) ho1 ho2 ho3
      (fun j sh p q r => h8 j sh p (by omega) r) (by
        rcases h9 with h | h
        · exact Or.inl (fun y hy => h y (by simp [hy]))
        · right; rw [hpool]; exact h)
    refine ⟨l', ?_, e2, e3, e4, e5, e6, e7, ?_, ?_, ?_, ?_⟩
    · unfold inplaceLoop
      rw [← hrem] at hg
      simp only [hg, ho, hs, bind, Except.bind]
      exact e1
    · rw [e8]; exact hs1
    · rw [e9]; exact hs2
    · rw [e10]
      simp only
      rw [← ho1, hs3, ho1, h5, compose_append]
      rfl
    · intro b hb h
      rw [e11 b hb (by
        rcases h with h | h
        · exact Or.inl (fun y hy => h y (by simp [hy]))
        · right; rw [hpool]; exact h)]
      exact hs4 b (by rw [ho1]; exact hb) (by
        rcases h with h | h
        · exact Or.inl (h x (by simp))
        · right; exact h)

/-- What is assumed of the operands and arrays; `pool0`, `next0` and `mem0` are the initial state. -/
structure Env (c : Ctx V) (input : Arr) (pool0 : List Arr) (next0 : Nat) : Prop where
  len : c.shs.length = c.ops.length
  pools : (∀ op ∈ c.ops, op.usesPool = false) ∨
    (input.id ≠ c.output.id ∧ c.ngroups ≤ 3 ∧ (c.operation.isSome = true → c.ngroups ≤ 2))
  outFit : c.output.contiguous = true ∨ ∀ sh ∈ c.shs, sh = c.output.sh
  outSh : ∀ sh, c.shs[0]? = some sh → sh = c.output.sh
  pres : c.preserve = (input.id != c.output.id)
  ipReq : ∀ op ∈ c.ops, op.inplace = true → (op.alignedOut = true → op.alignedIn = true) ∧
    (op.contiguousOut = true → op.contiguousIn = true)
  outS : ¬ (c.output.id ∈ pool0.map Arr.id ∨ next0 ≤ c.output.id)
  inS : ¬ (input.id ∈ pool0.map Arr.id ∨ next0 ≤ input.id)

/-- A buffer of the pool, or that has been allocated. -/
def Scratch (pool0 : List Arr) (next0 b : Nat) : Prop := b ∈ pool0.map Arr.id ∨ next0 ≤ b

/-- The state when the groups number k and greater have been dealt with. -/
structure Inv (c : Ctx V) (input : Arr) (pool0 : List Arr) (next0 : Nat) (mem0 : Nat → V) (k : Nat) (g : Group)
    (pre : List (Opd V)) (v : V) (l : Loop V) : Prop where
  rem : l.rem = pre.length
  ids : l.i.id = l.iu.id
  al : g.aligned = true → l.i.aligned = true
  ct : g.contiguous = true → l.i.contiguous = true
  val : l.s.mem l.iu.id = v
  nodup : (l.s.pool.map Arr.id).Nodup
  lt : ∀ x ∈ l.s.pool, x.id < l.s.next
  iult : l.iu.id < l.s.next
  next : next0 ≤ l.s.next
  scr : ∀ x ∈ l.s.pool, Scratch pool0 next0 x.id
  iuNot : ∀ x ∈ l.s.pool, x.id ≠ l.iu.id
  kind1 : k + 1 = c.ngroups → l.iu.id = input.id
  kind2 : k + 1 < c.ngroups → l.iu.id = c.output.id ∨ Scratch pool0 next0 l.iu.id
  kind0 : k = 0 → l.iu.id = c.output.id
  frame : ∀ b, ¬ Scratch pool0 next0 b → b ≠ c.output.id → l.s.mem b = mem0 b
  old : c.operation.isSome = true → 0 < k → l.s.mem c.output.id = mem0 c.output.id
  sep : k = 1 → l.iu.id ≠ c.output.id ∨ ∀ op ∈ pre.getLast?, op.inplace = true

theorem nbytes_one (size : Nat) : (⟨[size], 1⟩ : Sh).nbytes = size := by
  simp [Sh.nbytes, Verif.Memory.product]

theorem extract_ok (tol : Nat → Nat → Bool) (s : St V) (size : Nat) (al ct : Bool) :
    ∃ e s', extract tol s size al ct = (e, s') ∧ e.contiguous = true ∧ size ≤ e.sh.nbytes ∧
      (al = true → e.aligned = true) ∧ s'.mem = s.mem ∧
      ((s'.next = s.next ∧ s.pool.Perm (e :: s'.pool)) ∨
        (s'.next = s.next + 1 ∧ s'.pool = s.pool ∧ e.id = s.next)) := by
  unfold extract
  cases hq : popFirst (fun x => iscompatible tol x size al ct) s.pool with
  | none =>
    exact ⟨_, _, rfl, rfl, by rw [nbytes_one], fun _ => rfl, rfl, Or.inr ⟨rfl, rfl, rfl⟩⟩
  | some y =>
    obtain ⟨h1, h2⟩ := popFirst_some _ _ y.1 y.2 hq
    refine ⟨_, _, rfl, ?_, ?_, ?_, rfl, Or.inl ⟨rfl, h2⟩⟩
    all_goals
      simp only [iscompatible] at h1
      split at h1
      · cases h1
      · split at h1
        · cases h1
        · split at h1
          · cases h1
          · simp_all

theorem compat_out {tol : Nat → Nat → Bool} {b : Arr} {size : Nat} {al ct : Bool}
    (h1 : iscompatible tol b size al ct = true) :
    b.contiguous = true ∧ size ≤ b.sh.nbytes ∧ (al = true → b.aligned = true) := by
  simp only [iscompatible] at h1
  split at h1
  · cases h1
  · split at h1
    · cases h1
    · split at h1
      · cases h1
      · simp_all

/-- A group that is not the innermost one. -/
theorem group_ok (c : Ctx V) (input : Arr) (pool0 : List Arr) (next0 : Nat) (mem0 : Nat → V)
    (E : Env c input pool0 next0) (k : Nat) (g g' : Group) (bufsize : Nat) (pre a done : List (Opd V)) (op : Opd V)
    (v : V) (l : Loop V)
    (hops : c.ops = pre ++ (a ++ op :: done)) (hn : a.length = g.n) (hk : k + 2 ≤ c.ngroups)
    (hpre : pre = [] ↔ k = 0)
    (ha : ∀ x ∈ a, x.inplace = true ∧ (x.alignedIn = true → g.aligned = true) ∧
      (x.contiguousIn = true → g.contiguous = true))
    (hoa : op.alignedOut = true → g.aligned = true) (hoc : op.contiguousOut = true → g.contiguous = true)
    (hia : op.alignedIn = true → g'.aligned = true) (hic : op.contiguousIn = true → g'.contiguous = true)
    (hbuf : ∀ j, j ≤ g.n → (c.shs.map Sh.nbytes).getD (pre.length + j) 0 ≤ bufsize)
    (h0 : k = 0 → (g.aligned = true → c.output.aligned = true) ∧ (g.contiguous = true → c.output.contiguous = true) ∧
      (∀ j, j ≤ g.n → (c.shs.map Sh.nbytes).getD j 0 ≤ (c.shs.map Sh.nbytes).getD 0 0) ∧
      (c.operation.isSome = true → g.n = 0))
    (I : Inv c input pool0 next0 mem0 (k + 1) g' (pre ++ (a ++ [op])) v l) :
    ∃ l', groupStep c k g bufsize l = .ok l' ∧
      Inv c input pool0 next0 mem0 k g pre
        (if k = 0 then combine c.operation (mem0 c.output.id) (compose (a ++ [op]) v) else compose (a ++ [op]) v) l' := by
  have hrem : l.rem = (pre ++ a).length + 1 := by rw [I.rem]; simp; omega
  obtain ⟨sh, hget, hsh⟩ := get_ok c E.len (pre ++ a) done op (by rw [hops]; simp)
  rw [← hrem] at hget
  have hopm : op ∈ c.ops := by rw [hops]; simp
  have ham : ∀ x ∈ a, x ∈ c.ops := by intro x hx; rw [hops]; simp [hx]
  -- the size of the output of the operands of the group
  have hsz : ∀ j sh, pre.length ≤ j → j < pre.length + (g.n + 1) → c.shs[j]? = some sh → sh.nbytes ≤ bufsize := by
    intro j sh h1 h2 h3
    have := hbuf (j - pre.length) (by omega)
    rw [Nat.add_sub_cancel' h1] at this
    simpa [List.getD_eq_getElem?_getD, h3] using this
  have hoNot : ∀ x ∈ l.s.pool, x.id ≠ c.output.id := by
    intro x hx he
    exact E.outS (he ▸ I.scr x hx)
  -- putting back the input
  have hback : (decide (k + 2 < c.ngroups) || !c.preserve) = true → l.iu.id ≠ c.output.id →
      Scratch pool0 next0 l.iu.id := by
    intro h1 h2
    by_cases hlt : k + 2 < c.ngroups
    · rcases I.kind2 (by omega) with h | h
      · exact absurd h h2
      · exact h
    · have hp : c.preserve = false := by simpa [hlt] using h1
      rw [E.pres] at hp
      have hio : input.id = c.output.id := by simpa using hp
      have := I.kind1 (by omega)
      exact absurd (this.trans hio) h2
  by_cases hr : reuseOutput c k g bufsize l.i = true
  · -- the output is the buffer of the group
    have hgb : getBuffer c (reuseOutput c k g bufsize l.i) g bufsize l.s = .ok (c.output, l.s) := by
      rw [hr]; rfl
    have hcase : k ≠ 0 → c.operation.isNone = true ∧ k % 2 = 0 ∧ c.output.contiguous = true ∧
        bufsize ≤ c.output.sh.nbytes ∧ (g.aligned = true → c.output.aligned = true) ∧ c.output.id ≠ l.i.id := by
      intro hk0
      simp only [reuseOutput, Bool.or_eq_true, Bool.and_eq_true, beq_iff_eq, bne_iff_ne, ne_eq] at hr
      rcases hr with ⟨⟨⟨h1, h2⟩, h3⟩, h4⟩ | h
      · obtain ⟨p, q, r⟩ := compat_out h3
        exact ⟨h1, h2, p, q, r, h4⟩
      · exact absurd h hk0
    have hview : ∀ j sh, pre.length ≤ j → j < pre.length + (g.n + 1) → c.shs[j]? = some sh →
        (c.output.contiguous = true ∧ sh.nbytes ≤ c.output.sh.nbytes) ∨ sh = c.output.sh := by
      intro j sh h1 h2 h3
      by_cases hk0 : k = 0
      · rcases E.outFit with hc | hc
        · left
          refine ⟨hc, ?_⟩
          have hp := hpre.mpr hk0
          subst hp
          have := (h0 hk0).2.2.1 j (by simp at h2; omega)
          have hj : (c.shs.map Sh.nbytes).getD j 0 = sh.nbytes := by
            simp [List.getD_eq_getElem?_getD, h3]
          cases hs0 : c.shs[0]? with
          | none =>
            rw [List.getElem?_eq_none_iff] at hs0
            have : c.shs[j]? = none := List.getElem?_eq_none_iff.mpr (by omega)
            rw [this] at h3; cases h3
          | some sh0 =>
            have h4 : (c.shs.map Sh.nbytes).getD 0 0 = sh0.nbytes := by
              rw [List.getD_eq_getElem?_getD, List.getElem?_map, hs0]; rfl
            rw [hj, h4, E.outSh sh0 hs0] at this
            exact this
        · right; exact hc sh (List.mem_of_getElem? h3)
      · obtain ⟨_, _, h4, h5, _⟩ := hcase hk0
        exact Or.inl ⟨h4, (hsz j sh h1 h2 h3).trans h5⟩
    have hal : g.aligned = true → c.output.aligned = true := by
      by_cases hk0 : k = 0
      · exact (h0 hk0).1
      · exact (hcase hk0).2.2.2.2.1
    have hct : g.contiguous = true → c.output.contiguous = true := by
      by_cases hk0 : k = 0
      · exact (h0 hk0).2.1
      · exact fun _ => (hcase hk0).2.2.1
    obtain ⟨o, ho, ho1, ho2, ho3⟩ := view_ok c.output sh
      (hview (pre ++ a).length sh (by simp) (by simp [hn]) hsh)
    have hsep : l.i.id ≠ o.id ∨ op.inplace = true := by
      by_cases hk0 : k = 0
      · rcases I.sep (by omega) with h | h
        · left; rw [I.ids, ho1]; exact h
        · right; exact h op (by rw [← List.append_assoc]; simp)
      · left; rw [ho1]; exact fun h => (hcase hk0).2.2.2.2.2 h.symm
    have hinput : l.s.inPool l.i.id = false := inPool_false (by rw [I.ids]; exact I.iuNot)
    have houtput : l.s.inPool o.id = false := inPool_false (by rw [ho1]; exact hoNot)
    obtain ⟨s1, hs, hs1, hs2, hs3, hs4⟩ := exec_ok op (if l.rem = 1 then c.operation else none) l.i o l.s
      (fun h => I.al (hia h)) (fun h => I.ct (hic h)) (fun h => by rw [ho2]; exact hal (hoa h))
      (fun h => by rw [ho3]; exact hct (hoc h)) hsep (Or.inr hinput) (Or.inr houtput)
    -- the pool after the input has been put back
    obtain ⟨s2, hgb2, hs2m, hs2n, hs2p⟩ : ∃ s2, giveBack c k l.iu s1 = .ok s2 ∧ s2.mem = s1.mem ∧ s2.next = s1.next ∧
        (s2.pool = l.s.pool ∨ (s2.pool.Perm (l.iu :: l.s.pool) ∧ l.iu.id ≠ c.output.id ∧
          Scratch pool0 next0 l.iu.id)) := by
      unfold giveBack
      by_cases hb : ((decide (k + 2 < c.ngroups) || !c.preserve) && l.iu.id != c.output.id) = true
      · rw [if_pos hb, add_ok (by rw [hs1]; exact I.iuNot)]
        simp only [Bool.and_eq_true, bne_iff_ne, ne_eq] at hb
        exact ⟨_, rfl, rfl, rfl, Or.inr ⟨by rw [hs1]; exact insertSorted_perm _ _, hb.2, hback hb.1 hb.2⟩⟩
      · rw [if_neg hb]
        exact ⟨_, rfl, rfl, rfl, Or.inl hs1⟩
    have hmem2 : ∀ x ∈ s2.pool, x.id ≠ c.output.id ∧ Scratch pool0 next0 x.id ∧ x.id < s2.next := by
      intro x hx
      rcases hs2p with h | ⟨h, h1, h2⟩
      · rw [h] at hx
        exact ⟨hoNot x hx, I.scr x hx, by rw [hs2n, hs2]; exact I.lt x hx⟩
      · rw [h.mem_iff] at hx
        rcases List.mem_cons.mp hx with rfl | hx
        · exact ⟨h1, h2, by rw [hs2n, hs2]; exact I.iult⟩
        · exact ⟨hoNot x hx, I.scr x hx, by rw [hs2n, hs2]; exact I.lt x hx⟩
    have hnd2 : (s2.pool.map Arr.id).Nodup := by
      rcases hs2p with h | ⟨h, h1, h2⟩
      · rw [h]; exact I.nodup
      · rw [(h.map Arr.id).nodup_iff, List.map_cons, List.nodup_cons]
        refine ⟨?_, I.nodup⟩
        intro hm
        obtain ⟨x, hx, e⟩ := List.mem_map.mp hm
        exact I.iuNot x hx e
    obtain ⟨l', e1, e2, e3, e4, e5, e6, e7, e8, e9, e10, e11⟩ := inplace_ok c E.len g.n pre a (op :: done)
      { rem := l.rem - 1, i := o, iu := c.output, ou := c.output, s := s2 } (by rw [hops]; simp) hn
      (by simp only; rw [hrem]; simp [hn])
      (fun x hx => by
        obtain ⟨p, q, r⟩ := ha x hx
        have := E.ipReq x (ham x hx) p
        exact ⟨p, fun h => hal (q h), fun h => hct (r h), fun h => hal (q (this.1 h)), fun h => hct (r (this.2 h))⟩)
      ho1 ho2 ho3 (fun j sh p q r => hview j sh p (by omega) r)
      (Or.inr (inPool_false (fun x hx => (hmem2 x hx).1)))
    refine ⟨l', ?_, ?_⟩
    · unfold groupStep
      simp only [hgb, hget, ho, hs, hgb2, e1, bind, Except.bind]
      rw [hr]
      rfl
    · have hiu : l'.iu.id = c.output.id := by rw [e6]
      refine ⟨e2, by rw [e3, hiu], fun h => by rw [e4]; exact hal h, fun h => by rw [e5]; exact hct h, ?_, ?_, ?_, ?_, ?_,
        ?_, ?_, ?_, ?_, ?_, ?_, ?_, ?_⟩
      · rw [hiu]
        simp only at e10
        rw [e10, hs2m, ← ho1, hs3, ho1, I.ids, I.val]
        by_cases hk0 : k = 0
        · rw [if_pos hk0]
          cases hop : c.operation with
          | none =>
            have : (if l.rem = 1 then (none : Option (V → V → V)) else none) = none := by split <;> rfl
            rw [this, compose_append]
            rfl
          | some gg =>
            have hz := (h0 hk0).2.2.2 (by simp [hop])
            rw [hz] at hn
            have ha0 : a = [] := List.length_eq_zero_iff.mp hn
            subst ha0
            have hp0 := hpre.mpr hk0
            subst hp0
            rw [if_pos (by rw [hrem]; rfl)]
            rw [I.old (by simp [hop]) (by omega)]
            rfl
        · rw [if_neg hk0]
          have hpr : pre ≠ [] := fun h => hk0 (hpre.mp h)
          have : l.rem ≠ 1 := by
            rw [hrem]; have := List.length_pos_iff.mpr hpr; simp; intro h; exact absurd h hpr
          rw [if_neg this, compose_append]
          rfl
      · rw [e8]; exact hnd2
      · rw [e8, e9]; exact fun x hx => (hmem2 x hx).2.2
      · rw [hiu, e9]
        have := E.outS
        simp only [not_or, not_le] at this
        have h2 := I.next
        simp only [hs2n, hs2]
        omega
      · rw [e9]; simp only [hs2n, hs2]; exact I.next
      · rw [e8]; exact fun x hx => (hmem2 x hx).2.1
      · rw [e8, hiu]; exact fun x hx => (hmem2 x hx).1
      · intro h; omega
      · intro h; exact Or.inl hiu
      · intro h; exact hiu
      · intro b hb hbo
        have hnp : s2.inPool b = false := inPool_false (fun x hx he => hb (he ▸ (hmem2 x hx).2.1))
        have hnp0 : l.s.inPool b = false := inPool_false (fun x hx he => hb (he ▸ I.scr x hx))
        rw [e11 b hbo (Or.inr hnp)]
        simp only
        rw [hs2m, hs4 b (by rw [ho1]; exact hbo) (Or.inr hnp0)]
        exact I.frame b hb hbo
      · intro h hk0
        have := (hcase (by omega)).1
        cases hq : c.operation with
        | none => rw [hq] at h; cases h
        | some _ => rw [hq] at this; cases this
      · intro hk1
        have := (hcase (by omega)).2.1
        omega
  · -- the buffer comes from the pool
    have hk0 : k ≠ 0 := by
      intro h
      exact hr (by simp [reuseOutput, h])
    have hrf : reuseOutput c k g bufsize l.i = false := by simpa using hr
    have hpr : pre ≠ [] := fun h => hk0 (hpre.mp h)
    have hrem1 : l.rem ≠ 1 := by
      rw [hrem]; simp; intro h; exact absurd h hpr
    obtain ⟨e, s0, he, hec, hes, hea, hsm, hsn⟩ := extract_ok c.tol l.s bufsize g.aligned g.contiguous
    have hesc : Scratch pool0 next0 e.id ∧ e.id ≠ l.iu.id ∧ e.id < s0.next ∧ (∀ x ∈ s0.pool, x.id ≠ e.id) ∧
        (∀ x ∈ s0.pool, x ∈ l.s.pool) ∧ (s0.pool.map Arr.id).Nodup ∧ l.s.next ≤ s0.next := by
      rcases hsn with ⟨h1, h2⟩ | ⟨h1, h2, h3⟩
      · have hm : e ∈ l.s.pool := h2.mem_iff.mpr (by simp)
        have hnd := I.nodup
        rw [(h2.map Arr.id).nodup_iff, List.map_cons, List.nodup_cons] at hnd
        refine ⟨I.scr e hm, I.iuNot e hm, by rw [h1]; exact I.lt e hm, ?_, fun x hx => h2.mem_iff.mpr (by simp [hx]),
          hnd.2, by omega⟩
        intro x hx hee
        exact hnd.1 (List.mem_map.mpr ⟨x, hx, hee⟩)
      · have := I.iult
        have h4 := I.next
        refine ⟨Or.inr (by omega), by omega, by omega, ?_, fun x hx => by rw [h2] at hx; exact hx,
          by rw [h2]; exact I.nodup, by omega⟩
        intro x hx hee
        rw [h2] at hx
        have := I.lt x hx
        omega
    obtain ⟨hesc, heiu, helt, hepool, hsub, hnd0, hnx⟩ := hesc
    have heo : e.id ≠ c.output.id := fun h => E.outS (h ▸ hesc)
    have hadd := add_ok (s := s0) (v := c.output) (fun x hx => hoNot x (hsub x hx))
    set s1 : St V := { s0 with pool := insertSorted c.output s0.pool } with hs1def
    have hs1perm : s1.pool.Perm (c.output :: s0.pool) := insertSorted_perm _ _
    have hgb : getBuffer c (reuseOutput c k g bufsize l.i) g bufsize l.s = .ok (e, s1) := by
      unfold getBuffer
      rw [hrf]
      simp only [he, Bool.false_eq_true, if_false, hadd]
      rfl
    have hview : ∀ j sh, pre.length ≤ j → j < pre.length + (g.n + 1) → c.shs[j]? = some sh →
        (e.contiguous = true ∧ sh.nbytes ≤ e.sh.nbytes) ∨ sh = e.sh :=
      fun j sh h1 h2 h3 => Or.inl ⟨hec, (hsz j sh h1 h2 h3).trans hes⟩
    obtain ⟨o, ho, ho1, ho2, ho3⟩ := view_ok e sh (hview (pre ++ a).length sh (by simp) (by simp [hn]) hsh)
    have hpu : (∀ x ∈ c.ops, x.usesPool = false) ∨ (l.iu.id ≠ c.output.id ∧ c.operation.isSome = false) := by
      rcases E.pools with h | ⟨h1, h2, h3⟩
      · exact Or.inl h
      · right
        refine ⟨?_, ?_⟩
        · rw [I.kind1 (by omega)]; exact h1
        · by_contra hh
          have := h3 (by cases hq : c.operation <;> simp_all)
          omega
    have hin : op.usesPool = false ∨ s1.inPool l.i.id = false := by
      rcases hpu with h | ⟨h, _⟩
      · exact Or.inl (h op hopm)
      · right
        apply inPool_false
        intro x hx
        rw [hs1perm.mem_iff] at hx
        rw [I.ids]
        rcases List.mem_cons.mp hx with rfl | hx
        · exact fun h' => h h'.symm
        · exact I.iuNot x (hsub x hx)
    obtain ⟨s2, hs, hs1', hs2, hs3, hs4⟩ := exec_ok op (if l.rem = 1 then c.operation else none) l.i o s1
      (fun h => I.al (hia h)) (fun h => I.ct (hic h)) (fun h => by rw [ho2]; exact hea (hoa h))
      (fun _ => by rw [ho3]; exact hec) (Or.inl (by rw [I.ids, ho1]; exact fun h => heiu h.symm)) hin
      (Or.inr (inPool_false (by
        intro x hx
        rw [ho1]
        rcases List.mem_cons.mp (hs1perm.mem_iff.mp hx) with rfl | hx
        · exact fun h => heo h.symm
        · exact hepool x hx)))
    obtain ⟨s3, hgb2, hs3m, hs3n, hs3p⟩ : ∃ s3, giveBack c k l.iu s2 = .ok s3 ∧ s3.mem = s2.mem ∧ s3.next = s2.next ∧
        (s3.pool.Perm (c.output :: s0.pool) ∨ (s3.pool.Perm (c.output :: l.iu :: s0.pool) ∧ l.iu.id ≠ c.output.id ∧
          Scratch pool0 next0 l.iu.id)) := by
      unfold giveBack
      by_cases hb : ((decide (k + 2 < c.ngroups) || !c.preserve) && l.iu.id != c.output.id) = true
      · have hb' := hb
        simp only [Bool.and_eq_true, bne_iff_ne, ne_eq] at hb'
        rw [if_pos hb, add_ok (by
          intro x hx
          rw [hs1', hs1perm.mem_iff] at hx
          rcases List.mem_cons.mp hx with rfl | hx
          · exact fun h' => hb'.2 h'.symm
          · exact I.iuNot x (hsub x hx))]
        refine ⟨_, rfl, rfl, rfl, Or.inr ⟨?_, hb'.2, hback hb'.1 hb'.2⟩⟩
        refine (insertSorted_perm _ _).trans ?_
        rw [hs1']
        exact (hs1perm.cons _).trans (List.Perm.swap _ _ _)
      · rw [if_neg hb]
        exact ⟨_, rfl, rfl, rfl, Or.inl (by rw [hs1']; exact hs1perm)⟩
    -- the rest of the pool: every buffer but the output
    obtain ⟨rest, hrest, hrm, hrnd⟩ : ∃ rest, s3.pool.Perm (c.output :: rest) ∧
        (∀ x ∈ rest, x.id ≠ c.output.id ∧ Scratch pool0 next0 x.id ∧ x.id < s3.next ∧ x.id ≠ e.id) ∧
        (rest.map Arr.id).Nodup := by
      rcases hs3p with h | ⟨h, h1, h2⟩
      · refine ⟨s0.pool, h, ?_, hnd0⟩
        intro x hx
        refine ⟨hoNot x (hsub x hx), I.scr x (hsub x hx), ?_, hepool x hx⟩
        have := I.lt x (hsub x hx)
        rw [hs3n, hs2]
        exact lt_of_lt_of_le this hnx
      · refine ⟨l.iu :: s0.pool, h, ?_, ?_⟩
        · intro x hx
          rcases List.mem_cons.mp hx with rfl | hx
          · refine ⟨h1, h2, ?_, fun h => heiu h.symm⟩
            rw [hs3n, hs2]
            exact lt_of_lt_of_le I.iult hnx
          · refine ⟨hoNot x (hsub x hx), I.scr x (hsub x hx), ?_, hepool x hx⟩
            have := I.lt x (hsub x hx)
            rw [hs3n, hs2]
            exact lt_of_lt_of_le this hnx
        · rw [List.map_cons, List.nodup_cons]
          refine ⟨?_, hnd0⟩
          intro hm
          obtain ⟨x, hx, e'⟩ := List.mem_map.mp hm
          exact I.iuNot x (hsub x hx) e'
    have hepool3 : ∀ x ∈ s3.pool, x.id ≠ e.id := by
      intro x hx
      rw [hrest.mem_iff] at hx
      rcases List.mem_cons.mp hx with rfl | hx
      · exact fun h => heo h.symm
      · exact (hrm x hx).2.2.2
    obtain ⟨l', e1, e2, e3, e4, e5, e6, e7, e8, e9, e10, e11⟩ := inplace_ok c E.len g.n pre a (op :: done)
      { rem := l.rem - 1, i := o, iu := e, ou := e, s := s3 } (by rw [hops]; simp) hn
      (by simp only; rw [hrem]; simp [hn])
      (fun x hx => by
        obtain ⟨p, q, r⟩ := ha x hx
        have := E.ipReq x (ham x hx) p
        exact ⟨p, fun h => hea (q h), fun _ => hec, fun h => hea (q (this.1 h)), fun _ => hec⟩)
      ho1 ho2 ho3 (fun j sh p q r => hview j sh p (by omega) r)
      (Or.inr (inPool_false hepool3))
    simp only at e8 e9 e10
    obtain ⟨r, x, hrem2, hx1, hx2⟩ := remove_ok (s := l'.s) (v := c.output) ⟨c.output, by
      rw [e8, hrest.mem_iff]; simp, rfl⟩
    -- what is left in the pool
    have hperm : (c.output.id :: rest.map Arr.id).Perm (c.output.id :: r.map Arr.id) := by
      have h1 := (hrest.symm.trans (e8 ▸ hx2)).map Arr.id
      simpa [hx1] using h1
    have hperm2 := (List.perm_cons _).mp hperm
    have hrmem : ∀ x ∈ r, x.id ≠ c.output.id ∧ Scratch pool0 next0 x.id ∧ x.id < s3.next ∧ x.id ≠ e.id := by
      intro x hx
      have : x.id ∈ rest.map Arr.id := hperm2.mem_iff.mpr (List.mem_map.mpr ⟨x, hx, rfl⟩)
      obtain ⟨y, hy, hye⟩ := List.mem_map.mp this
      have := hrm y hy
      rw [hye] at this
      exact this
    refine ⟨{ l' with s := { l'.s with pool := r } }, ?_, ?_⟩
    · unfold groupStep
      simp only [hgb, hget, ho, hs, hgb2, e1, bind, Except.bind]
      rw [hrf]
      simp only [takeOutput, hrem2]
      rfl
    · have hiu : l'.iu.id = e.id := by rw [e6]
      refine ⟨e2, by rw [hiu]; exact e3, fun h => by rw [e4]; exact hea h, fun _ => by rw [e5]; exact hec, ?_, ?_, ?_, ?_, ?_,
        ?_, ?_, ?_, ?_, ?_, ?_, ?_, ?_⟩
      · simp only
        rw [hiu, e10, hs3m, ← ho1, hs3, ho1, I.ids, if_neg hrem1, if_neg hk0, compose_append]
        rw [hs1def]
        simp only
        rw [hsm, I.val]
        rfl
      · exact hperm2.nodup_iff.mp hrnd
      · intro x hx
        simp only
        rw [e9]
        exact (hrmem x hx).2.2.1
      · simp only
        rw [hiu, e9, hs3n, hs2]; exact helt
      · simp only
        rw [e9, hs3n, hs2]
        exact I.next.trans hnx
      · exact fun x hx => (hrmem x hx).2.1
      · intro x hx; rw [hiu]; exact (hrmem x hx).2.2.2
      · intro h; omega
      · intro h; right; rw [hiu]; exact hesc
      · intro h; exact absurd h hk0
      · intro b hb hbo
        have hbe : b ≠ e.id := fun h => hb (h ▸ hesc)
        have hnp : s3.inPool b = false := inPool_false (fun x hx he => by
          rw [hrest.mem_iff] at hx
          rcases List.mem_cons.mp hx with rfl | hx
          · exact hbo he.symm
          · exact hb (he ▸ (hrm x hx).2.1))
        have hnp0 : s1.inPool b = false := inPool_false (fun x hx he => by
          rw [hs1perm.mem_iff] at hx
          rcases List.mem_cons.mp hx with rfl | hx
          · exact hbo he.symm
          · exact hb (he ▸ I.scr x (hsub x hx)))
        simp only
        rw [e11 b hbe (Or.inr hnp)]
        simp only
        rw [hs3m, hs4 b (by rw [ho1]; exact hbe) (Or.inr hnp0), hs1def]
        simp only
        rw [hsm]
        exact I.frame b hb hbo
      · intro h _
        have hnone : ∀ x ∈ c.ops, x.usesPool = false := by
          rcases hpu with hh | ⟨_, hh⟩
          · exact hh
          · rw [hh] at h; cases h
        simp only
        rw [e11 c.output.id (fun h => heo h.symm) (Or.inl (fun x hx => hnone x (ham x hx)))]
        simp only
        rw [hs3m, hs4 c.output.id (by rw [ho1]; exact fun h => heo h.symm) (Or.inl (hnone op hopm)), hs1def]
        simp only
        rw [hsm]
        exact I.old h (by omega)
      · intro _; left; rw [hiu]; exact heo

end Verif.Compose
