import Verif.Compose.Loop

/- Properties C17, C18, C57: the evaluation of a composition and its buffers. -/

namespace Verif.Compose

open Verif.Memory (product)

variable {V : Type}

/-- What is assumed when the input is the output. -/
structure AliasOk (c : Ctx V) (input : Arr) : Prop where
  op : c.operation = none
  cin : input.contiguous = true
  cout : c.output.contiguous = true
  al : input.aligned = c.output.aligned
  size : ∀ sh ∈ c.shs, sh.nbytes ≤ max input.sh.nbytes c.output.sh.nbytes
  two : c.ngroups = 2 → ∀ op ∈ c.ops, op.inplace = true

/-- The initial value of `o_`. -/
def firstBuffer (input output : Arr) : Arr :=
  if input.id = output.id then if input.sh.nbytes < output.sh.nbytes then output else input else output

theorem groups_ok (c : Ctx V) (input : Arr) (s : St V) (E : Env c input s.pool s.next)
    (A : input.id = c.output.id → AliasOk c input) (hnd : (s.pool.map Arr.id).Nodup)
    (hlt : ∀ x ∈ s.pool, x.id < s.next) (hops0 : c.ops ≠ []) :
    ∀ (info : List (Group × Nat)) (k : Nat) (pre cops : List (Opd V)), Fits (info.map Prod.fst) cops →
      c.ops = pre ++ cops → BufOk (c.shs.map Sh.nbytes) pre.length info → k + info.length = c.ngroups →
      (pre = [] ↔ k = 0) → LastOk input c.preserve (info.map Prod.fst) →
      (k = 0 → ∃ g b gs, info = (g, b) :: gs ∧ (g.aligned = true → c.output.aligned = true) ∧
        (g.contiguous = true → c.output.contiguous = true) ∧
        (∀ j, j ≤ g.n → (c.shs.map Sh.nbytes).getD j 0 ≤ (c.shs.map Sh.nbytes).getD 0 0) ∧
        (c.operation.isSome = true → g.n = 0)) →
      ∃ l g b gs, info = (g, b) :: gs ∧
        groupsLoop c k info ⟨c.ops.length, input, input, firstBuffer input c.output, s⟩ = .ok l ∧
        Inv c input s.pool s.next s.mem k g pre
          (if k = 0 then combine c.operation (s.mem c.output.id) (compose cops (s.mem input.id))
            else compose cops (s.mem input.id)) l := by
  intro info
  induction info with
  | nil => intro k pre cops h; exact h.elim
  | cons p rest ih =>
    obtain ⟨g, bs⟩ := p
    intro k pre cops hf hops hbuf hk hpre hlast hfirst
    have houtS := E.outS
    have hinS := E.inS
    simp only [not_or, not_le] at houtS hinS
    cases rest with
    | nil =>
      obtain ⟨hf1, hf2⟩ := hf
      obtain ⟨G', g', e, hg1, hg2, hg3⟩ := hlast
      have hgg : g = g' := by
        cases G' with
        | nil => simpa using e
        | cons a b => simp at e
      subst hgg
      have hk1 : k + 1 = c.ngroups := by simpa using hk
      by_cases hal : input.id = c.output.id
      · -- in place
        have AA := A hal
        have hfb : (firstBuffer input c.output).id = c.output.id ∧
            (firstBuffer input c.output).aligned = input.aligned ∧
            (firstBuffer input c.output).contiguous = true ∧
            (firstBuffer input c.output).sh.nbytes = max input.sh.nbytes c.output.sh.nbytes := by
          unfold firstBuffer
          rw [if_pos hal]
          split
          · rename_i h
            exact ⟨rfl, AA.al.symm, AA.cout, (max_eq_right (le_of_lt h)).symm⟩
          · rename_i h
            exact ⟨hal, rfl, AA.cin, (max_eq_left (not_lt.mp h)).symm⟩
        obtain ⟨b1, b2, b3, b4⟩ := hfb
        obtain ⟨l', e1, e2, e3, e4, e5, e6, e7, e8, e9, e10, e11⟩ := inplace_ok c E.len g.n pre cops []
          ⟨c.ops.length, input, input, firstBuffer input c.output, s⟩ (by simpa using hops) hf1
          (by simp [hops, hf1])
          (fun x hx => by
            obtain ⟨p, q, r⟩ := hf2 x hx
            have := E.ipReq x (by rw [hops]; simp [hx]) p
            exact ⟨p, fun h => by simp only [b2]; exact hg1 (q h), fun _ => b3,
              fun h => by simp only [b2]; exact hg1 (q (this.1 h)), fun _ => b3⟩)
          (by simp only [b1]; exact hal) (by simp only [b2]) (by simp only [b3, AA.cin])
          (fun j sh _ _ h => Or.inl ⟨b3, by simp only [b4]; exact AA.size sh (List.mem_of_getElem? h)⟩)
          (Or.inr (inPool_false (fun x hx he => E.outS (Or.inl (by
            simp only [b1] at he; exact List.mem_map.mpr ⟨x, hx, he⟩)))))
        simp only [b1] at e3 e4 e5 e6 e7 e8 e9 e10 e11
        refine ⟨l', g, bs, [], rfl, e1, ?_⟩
        have hiu : l'.iu.id = c.output.id := by rw [e6]; exact hal
        refine ⟨e2, by rw [e3, hiu], fun h => by rw [e4, b2]; exact hg1 h, fun h => by rw [e5]; exact b3, ?_, ?_, ?_, ?_,
          ?_, ?_, ?_, ?_, ?_, ?_, ?_, ?_, ?_⟩
        · rw [hiu, e10, hal, AA.op]
          simp only [combine, ite_self]
        · rw [e8]; exact hnd
        · rw [e8, e9]; exact hlt
        · rw [hiu, e9]; exact houtS.2
        · rw [e9]
        · intro x hx; rw [e8] at hx; exact Or.inl (List.mem_map.mpr ⟨x, hx, rfl⟩)
        · intro x hx he
          rw [e8] at hx; rw [hiu] at he
          exact E.outS (Or.inl (List.mem_map.mpr ⟨x, hx, he⟩))
        · intro _; rw [hiu, hal]
        · intro h; omega
        · intro _; exact hiu
        · intro b hb hbo
          exact e11 b hbo (Or.inr (inPool_false (fun x hx he => hb (Or.inl (List.mem_map.mpr ⟨x, hx, he⟩)))))
        · intro h; rw [AA.op] at h; cases h
        · intro h1
          right
          intro op hop
          exact AA.two (by omega) op (by rw [hops]; exact List.mem_append_left _ (List.mem_of_getLast? hop))
      · -- out of place
        have hp : c.preserve = true := by rw [E.pres]; simpa using hal
        have hn0 : g.n = 0 := hg3 hp
        have hc0 : cops = [] := List.length_eq_zero_iff.mp (hf1.trans hn0)
        subst hc0
        have hpne : pre ≠ [] := by rintro rfl; exact hops0 (by simpa using hops)
        have hk0 : k ≠ 0 := fun h => hpne (hpre.mpr h)
        refine ⟨_, g, bs, [], rfl, by simp only [groupsLoop, hn0]; rfl, ?_⟩
        rw [if_neg hk0]
        refine ⟨by simp [hops], rfl, hg1, hg2, rfl, hnd, hlt, hinS.2, le_refl _, ?_, ?_, fun _ => rfl, ?_, ?_, ?_, ?_, ?_⟩
        · intro x hx; exact Or.inl (List.mem_map.mpr ⟨x, hx, rfl⟩)
        · intro x hx he; exact E.inS (Or.inl (List.mem_map.mpr ⟨x, hx, he⟩))
        · intro h; omega
        · intro h; exact absurd h hk0
        · intro b _ _; rfl
        · intro _ _; rfl
        · intro _; exact Or.inl hal
    | cons p2 rest =>
      obtain ⟨g2, bs2⟩ := p2
      obtain ⟨a, op, b, he, hn, hf1, hf2, hf3, hf4, hf5, hf6⟩ := hf
      obtain ⟨hb1, hb2⟩ := hbuf
      have hlast' : LastOk input c.preserve (((g2, bs2) :: rest).map Prod.fst) := by
        obtain ⟨G', g', e, hg⟩ := hlast
        cases G' with
        | nil => simp at e
        | cons x y =>
          simp only [List.map_cons, List.cons_append, List.cons.injEq] at e
          exact ⟨y, g', by simpa using e.2, hg⟩
      have hfst : Fits (((g2, bs2) :: rest).map Prod.fst) b := hf6
      obtain ⟨l, g3, b3, gs3, e3, hl, hI⟩ := ih (k + 1) (pre ++ (a ++ [op])) b hfst (by rw [hops, he]; simp)
        (by simpa [hn, Nat.add_assoc] using hb2) (by simp at hk ⊢; omega) (by simp) hlast' (by intro h; omega)
      simp only [List.cons.injEq, Prod.mk.injEq] at e3
      obtain ⟨⟨rfl, rfl⟩, rfl⟩ := e3
      rw [if_neg (by omega)] at hI
      obtain ⟨l', hl', hI'⟩ := group_ok c input s.pool s.next s.mem E k g g2 bs pre a b op (compose b (s.mem input.id)) l
        (by rw [hops, he]) hn (by simp at hk; omega) hpre hf1 hf2 hf3 hf4 hf5 hb1
        (by
          intro h
          obtain ⟨g0, bb, gs, e, h1⟩ := hfirst h
          simp only [List.cons.injEq, Prod.mk.injEq] at e
          obtain ⟨⟨rfl, rfl⟩, _⟩ := e
          exact h1) hI
      refine ⟨l', g, bs, _, rfl, ?_, ?_⟩
      · have : groupsLoop c k ((g, bs) :: (g2, bs2) :: rest)
            ⟨c.ops.length, input, input, firstBuffer input c.output, s⟩ =
            (groupsLoop c (k + 1) ((g2, bs2) :: rest)
              ⟨c.ops.length, input, input, firstBuffer input c.output, s⟩).bind (groupStep c k g bs) := rfl
        rw [this, hl]
        exact hl'
      · have hv : compose (a ++ [op]) (compose b (s.mem input.id)) = compose cops (s.mem input.id) := by
          rw [← compose_append, he]; simp
        rw [hv] at hI'
        exact hI'

/-- The memory is in a state in which `direct` can be called: the buffers of the pool are distinct, the input and output
are arrays of the user, that are not in the pool. -/
structure Ready (s : St V) (input output : Arr) : Prop where
  nodup : (s.pool.map Arr.id).Nodup
  lt : ∀ x ∈ s.pool, x.id < s.next
  inp : input.id ∉ s.pool.map Arr.id ∧ input.id < s.next
  out : output.id ∉ s.pool.map Arr.id ∧ output.id < s.next

/-- The shapes and flags are those of a call that has been validated by `Operator.__call__` (src/pyoperators/core.py:431-500):
the output has the shape of the output of the first operand; the input and output have the alignment and contiguity required
by the last and first operands. -/
structure Validated (ops : List (Opd V)) (shs : List Sh) (input output : Arr) : Prop where
  two : 2 ≤ ops.length
  len : shs.length = ops.length
  out : shs[0]? = some output.sh
  inReq : ∀ op ∈ ops.getLast?, (op.alignedIn = true → input.aligned = true) ∧
    (op.contiguousIn = true → input.contiguous = true)
  outReq : ∀ op ∈ ops.head?, (op.alignedOut = true → output.aligned = true) ∧
    (op.contiguousOut = true → output.contiguous = true)

/-- An operand that works in place and requires an alignment or contiguity of its output requires it of its input. -/
def InplaceReq (ops : List (Opd V)) : Prop :=
  ∀ op ∈ ops, op.inplace = true → (op.alignedOut = true → op.alignedIn = true) ∧
    (op.contiguousOut = true → op.contiguousIn = true)

/-- No buffer has to be taken from the pool for a composition of so few groups of operands, but the buffers of the groups
in between: number of operands that do not work in place, plus one for each of the first and last operands if it does. -/
def groupsBound (ops : List (Opd V)) : Nat :=
  numOut ops + (ops.head?.map (fun o => o.inplace.toNat)).getD 0 + (ops.getLast?.map (fun o => o.inplace.toNat)).getD 0

theorem direct_ok (tol : Nat → Nat → Bool) (ops : List (Opd V)) (shs : List Sh) (input output : Arr)
    (operation : Option (V → V → V)) (s : St V) (R : Ready s input output) (W : Validated ops shs input output)
    (hip : InplaceReq ops) (hfit : output.contiguous = true ∨ ∀ sh ∈ shs, sh = output.sh)
    (hpool : (∀ op ∈ ops, op.usesPool = false) ∨
      (input.id ≠ output.id ∧ groupsBound ops ≤ 2 ∧ (operation.isSome = true → groupsBound ops ≤ 1)))
    (hop : operation.isSome = true → input.id ≠ output.id ∧ ∀ op ∈ ops.head?, op.inplace = false)
    (hal : input.id = output.id → input.contiguous = true ∧ output.contiguous = true ∧
      input.aligned = output.aligned ∧ (∀ sh ∈ shs, sh.nbytes ≤ max input.sh.nbytes output.sh.nbytes) ∧
      numOut ops ≠ 1) :
    ∃ s', direct tol ops shs input output operation true s = .ok s' ∧
      s'.mem output.id = combine operation (s.mem output.id) (compose ops (s.mem input.id)) ∧
      (∀ b, ¬ Scratch s.pool s.next b → b ≠ output.id → s'.mem b = s.mem b) ∧
      (∀ x ∈ s'.pool, Scratch s.pool s.next x.id) ∧ (s'.pool.map Arr.id).Nodup := by
  obtain ⟨x0, mid, xl, rfl⟩ : ∃ x0 mid xl, ops = x0 :: (mid ++ [xl]) := by
    have := W.two
    cases ops with
    | nil => simp at this
    | cons x0 t =>
      have ht : t ≠ [] := by rintro rfl; simp at this
      exact ⟨x0, t.dropLast, t.getLast ht, by rw [List.dropLast_concat_getLast ht]⟩
  have hgl : (x0 :: (mid ++ [xl])).getLast? = some xl := by
    rw [← List.cons_append, List.getLast?_append]; simp
  have hin := W.inReq xl (by rw [hgl]; rfl)
  have hou := W.outReq x0 (by simp)
  have hipl := hip xl (by simp)
  obtain ⟨info, hinfo, J⟩ := getInfo_ok x0 xl mid shs input output (input.id != output.id) W.len hin.1 hin.2 hou.1 hou.2
    (fun h => (hipl h).1) (fun h => (hipl h).2)
  have hup : info.length ≤ groupsBound (x0 :: (mid ++ [xl])) + 1 := by
    have := J.upper
    simp only [groupsBound, hgl, List.head?_cons, Option.map_some, Option.getD_some]
    omega
  set c : Ctx V := ⟨x0 :: (mid ++ [xl]), shs, output, input.id != output.id, operation, info.length, tol⟩ with hc
  have E : Env c input s.pool s.next := by
    refine ⟨W.len, ?_, hfit, ?_, rfl, hip, ?_, ?_⟩
    · rcases hpool with h | ⟨h1, h2, h3⟩
      · exact Or.inl h
      · exact Or.inr ⟨h1, by simp only [hc]; omega, fun h => by have := h3 h; simp only [hc]; omega⟩
    · intro sh h
      simp only [hc, W.out] at h
      cases h; rfl
    · have := R.out; simp only [not_or, not_le]; exact this
    · have := R.inp; simp only [not_or, not_le]; exact this
  have A : input.id = c.output.id → AliasOk c input := by
    intro h
    obtain ⟨h1, h2, h3, h4, h5⟩ := hal h
    refine ⟨?_, h1, h2, h3, h4, ?_⟩
    · cases ho : operation with
      | none => simp [hc, ho]
      | some g => exact absurd h (hop (by simp [ho])).1
    · intro h2
      have := J.lower
      have hz : numOut (x0 :: (mid ++ [xl])) = 0 := by
        simp only [hc] at h2
        omega
      intro op hop
      simp only [numOut, List.length_eq_zero_iff, List.filter_eq_nil_iff] at hz
      simpa using hz op hop
  obtain ⟨l, g, b, gs, _, hl, I⟩ := groups_ok c input s E A R.nodup R.lt (by simp [hc]) info 0 [] c.ops J.fits (by simp)
    J.buf (by simp [hc]) (by simp) J.last (by
      intro _
      obtain ⟨g, b, gs, e, h1, h2, h3, h4⟩ := J.first
      exact ⟨g, b, gs, e, h1, h2, h3, fun h => h4 ((hop h).2 x0 (by simp))⟩)
  refine ⟨l.s, ?_, ?_, I.frame, I.scr, I.nodup⟩
  · unfold direct
    simp only [Bool.true_and, hinfo, bind, Except.bind]
    have : groupsLoop c 0 info ⟨c.ops.length, input, input, firstBuffer input c.output, s⟩ = .ok l := hl
    simp only [firstBuffer, hc] at this
    rw [this]
    simp only
    rw [if_neg]
    simp
  · have h1 := I.val
    rw [I.kind0 rfl, if_pos rfl] at h1
    exact h1

/-! ### C17 -/

/-- C17 for the calls with an output that is not the input.  The output receives the result of the operands, applied from
the last one to the first one; no error is raised and no operand is given an array without the alignment or contiguity
that it requires; no array but the output, the buffers of the pool and those that are allocated is modified; the input
and output are not left in the pool.  Partial: the operands that take buffers from the pool are excluded unless the
composition has few groups of operands (see C17_pool_fails); a non-contiguous output can only be given if the
intermediate results have its shape and type (see C17_noncontiguous_fails); the operands that work in place have the
requirements of their output on their input. -/
theorem C17_out_of_place_partial (tol : Nat → Nat → Bool) (ops : List (Opd V)) (shs : List Sh) (input output : Arr)
    (s : St V) (hdiff : input.id ≠ output.id) (R : Ready s input output) (W : Validated ops shs input output)
    (hip : InplaceReq ops) (hfit : output.contiguous = true ∨ ∀ sh ∈ shs, sh = output.sh)
    (hpool : (∀ op ∈ ops, op.usesPool = false) ∨ groupsBound ops ≤ 2) :
    ∃ s', direct tol ops shs input output none true s = .ok s' ∧
      s'.mem output.id = ops.foldr (fun o x => o.f x) (s.mem input.id) ∧
      s'.mem input.id = s.mem input.id ∧
      (∀ b, b ≠ output.id → b ∉ s.pool.map Arr.id → b < s.next → s'.mem b = s.mem b) ∧
      (∀ x ∈ s'.pool, x.id ≠ input.id ∧ x.id ≠ output.id) ∧ (s'.pool.map Arr.id).Nodup := by
  obtain ⟨s', h1, h2, h3, h4, h5⟩ := direct_ok tol ops shs input output none s R W hip hfit
    (by
      rcases hpool with h | h
      · exact Or.inl h
      · exact Or.inr ⟨hdiff, h, by simp⟩) (by simp) (fun h => absurd h hdiff)
  have hns : ∀ b, b ∉ s.pool.map Arr.id → b < s.next → ¬ Scratch s.pool s.next b := by
    intro b hb hl h
    rcases h with h | h
    · exact hb h
    · omega
  refine ⟨s', h1, h2, h3 _ (hns _ R.inp.1 R.inp.2) hdiff, fun b hb hp hl => h3 b (hns b hp hl) hb, ?_, h5⟩
  intro x hx
  have := h4 x hx
  exact ⟨fun h => hns _ R.inp.1 R.inp.2 (h ▸ this), fun h => hns _ R.out.1 R.out.2 (h ▸ this)⟩

/-- C17 for the calls in which the output may share the memory of the input (`input.id = output.id`).  Partial: moreover the number of operands that do
not work in place is not one (see C17_in_place_fails), no operand takes buffers from the pool, and the larger one
of the input and output can hold the intermediate results. -/
theorem C17_in_place_partial (tol : Nat → Nat → Bool) (ops : List (Opd V)) (shs : List Sh) (input output : Arr)
    (s : St V) (hcin : input.contiguous = true) (hcout : output.contiguous = true)
    (hal : input.aligned = output.aligned) (R : Ready s input output) (W : Validated ops shs input output)
    (hip : InplaceReq ops) (hpool : ∀ op ∈ ops, op.usesPool = false)
    (hsize : ∀ sh ∈ shs, sh.nbytes ≤ max input.sh.nbytes output.sh.nbytes)
    (hone : (ops.filter (fun o => !o.inplace)).length ≠ 1) :
    ∃ s', direct tol ops shs input output none true s = .ok s' ∧
      s'.mem output.id = ops.foldr (fun o x => o.f x) (s.mem input.id) ∧
      (∀ b, b ≠ output.id → b ∉ s.pool.map Arr.id → b < s.next → s'.mem b = s.mem b) ∧
      (∀ x ∈ s'.pool, x.id ≠ output.id) ∧ (s'.pool.map Arr.id).Nodup := by
  obtain ⟨s', h1, h2, h3, h4, h5⟩ := direct_ok tol ops shs input output none s R W hip (Or.inl hcout) (Or.inl hpool)
    (by simp) (fun _ => ⟨hcin, hcout, hal, hsize, hone⟩)
  have hns : ∀ b, b ∉ s.pool.map Arr.id → b < s.next → ¬ Scratch s.pool s.next b := by
    intro b hb hl h
    rcases h with h | h
    · exact hb h
    · omega
  exact ⟨s', h1, h2, fun b hb hp hl => h3 b (hns b hp hl) hb,
    fun x hx h => hns _ R.out.1 R.out.2 (h ▸ h4 x hx), h5⟩

/-! ### C57 -/

/-- C57: the output is updated by the operation.  Partial: the first operand does not work in place (see
C57_in_place_first_fails); no operand takes buffers from the pool, unless the composition has two groups of operands
(see C57_pool_fails). -/
theorem C57_update_partial (tol : Nat → Nat → Bool) (ops : List (Opd V)) (shs : List Sh) (input output : Arr)
    (operation : V → V → V) (s : St V) (hdiff : input.id ≠ output.id) (R : Ready s input output)
    (W : Validated ops shs input output) (hip : InplaceReq ops)
    (hfit : output.contiguous = true ∨ ∀ sh ∈ shs, sh = output.sh)
    (hfirst : ∀ op ∈ ops.head?, op.inplace = false)
    (hpool : (∀ op ∈ ops, op.usesPool = false) ∨ groupsBound ops ≤ 1) :
    ∃ s', direct tol ops shs input output (some operation) true s = .ok s' ∧
      s'.mem output.id = operation (s.mem output.id) (ops.foldr (fun o x => o.f x) (s.mem input.id)) ∧
      s'.mem input.id = s.mem input.id ∧
      (∀ b, b ≠ output.id → b ∉ s.pool.map Arr.id → b < s.next → s'.mem b = s.mem b) := by
  obtain ⟨s', h1, h2, h3, h4, h5⟩ := direct_ok tol ops shs input output (some operation) s R W hip hfit
    (by
      rcases hpool with h | h
      · exact Or.inl h
      · exact Or.inr ⟨hdiff, by omega, fun _ => h⟩) (fun _ => ⟨hdiff, hfirst⟩) (fun h => absurd h hdiff)
  have hns : ∀ b, b ∉ s.pool.map Arr.id → b < s.next → ¬ Scratch s.pool s.next b := by
    intro b hb hl h
    rcases h with h | h
    · exact hb h
    · omega
  exact ⟨s', h1, h2, h3 _ (hns _ R.inp.1 R.inp.2) hdiff, fun b hb hp hl => h3 b (hns b hp hl) hb⟩

/-! ### C18 -/

/-- C18: the buffer of a group of operands is at least as large as the outputs of the operands of the group: those whose
number starts at the number of operands of the groups before. -/
theorem C18_large_enough (ops : List (Opd V)) (shs : List Sh) (input output : Arr) (preserve : Bool)
    (info : List (Group × Nat)) (h : getInfo ops shs input output preserve = .ok info)
    (before after : List (Group × Nat)) (g : Group) (size : Nat) (hi : info = before ++ (g, size) :: after)
    (hlast : after ≠ []) (j : Nat) (sh : Sh)
    (hj1 : (before.map (fun x => x.1.n + 1)).sum ≤ j) (hj2 : j ≤ (before.map (fun x => x.1.n + 1)).sum + g.n)
    (hsh : shs[j]? = some sh) : product sh.shape * sh.itemsize ≤ size := by
  have hb : BufOk (shs.map Sh.nbytes) 0 info := by
    unfold getInfo at h
    simp only at h
    split at h
    · rename_i op g0 _ _
      cases h1 : makeLast preserve input op g0 (requirements ops) with
      | error e => simp [h1, bind, Except.bind] at h
      | ok G1 =>
        cases h2 : makeFirst output (shs.map Sh.nbytes) G1 with
        | error e => simp [h1, h2, bind, Except.bind] at h
        | ok G2 =>
          simp only [h1, h2, bind, Except.bind, Except.ok.injEq] at h
          rw [← h]
          exact bufOk_bufsizes G2 _
    · cases h
  have key : ∀ (before : List (Group × Nat)) (p : Nat),
      BufOk (shs.map Sh.nbytes) p (before ++ (g, size) :: after) →
      ∀ i, i ≤ g.n → (shs.map Sh.nbytes).getD (p + (before.map (fun x => x.1.n + 1)).sum + i) 0 ≤ size := by
    intro before
    induction before with
    | nil =>
      intro p hp i hig
      cases after with
      | nil => exact absurd rfl hlast
      | cons a b => simpa using hp.1 i hig
    | cons a l ih =>
      intro p hp i hi
      have h2 : BufOk (shs.map Sh.nbytes) (p + a.1.n + 1) (l ++ (g, size) :: after) := by
        cases hl : l ++ (g, size) :: after with
        | nil => simp at hl
        | cons x y => rw [List.cons_append, hl] at hp; exact hp.2
      have := ih _ h2 i hi
      simp only [List.map_cons, List.sum_cons]
      rw [show p + (a.1.n + 1 + (l.map (fun x => x.1.n + 1)).sum) + i =
        p + a.1.n + 1 + (l.map (fun x => x.1.n + 1)).sum + i by omega]
      exact this
  have := key before 0 (hi ▸ hb) (j - (before.map (fun x => x.1.n + 1)).sum) (by omega)
  rw [Nat.zero_add, Nat.add_sub_cancel' hj1, List.getD_eq_getElem?_getD, List.getElem?_map, hsh] at this
  exact this

/-- C18: the number of groups of operands is one more than the number of operands that do not work in place, and possibly
one more because of the last operand (that must not modify the input) and one more because of the first operand. -/
theorem C18_number_of_groups (x0 xl : Opd V) (mid : List (Opd V)) (shs : List Sh) (input output : Arr)
    (preserve : Bool) (W : Validated (x0 :: (mid ++ [xl])) shs input output) (hip : InplaceReq (x0 :: (mid ++ [xl]))) :
    ∃ info, getInfo (x0 :: (mid ++ [xl])) shs input output preserve = .ok info ∧
      ((x0 :: (mid ++ [xl])).filter (fun o => !o.inplace)).length + 1 ≤ info.length ∧
      info.length ≤ ((x0 :: (mid ++ [xl])).filter (fun o => !o.inplace)).length + 1 + xl.inplace.toNat +
        x0.inplace.toNat ∧
      (info.map (fun x => x.1.n)).sum + info.length = (x0 :: (mid ++ [xl])).length + 1 := by
  have hgl : (x0 :: (mid ++ [xl])).getLast? = some xl := by
    rw [← List.cons_append, List.getLast?_append]; simp
  have hin := W.inReq xl (by rw [hgl]; rfl)
  have hou := W.outReq x0 (by simp)
  have hipl := hip xl (by simp)
  obtain ⟨info, hinfo, J⟩ := getInfo_ok x0 xl mid shs input output preserve W.len hin.1 hin.2 hou.1 hou.2
    (fun h => (hipl h).1) (fun h => (hipl h).2)
  refine ⟨info, hinfo, J.lower, J.upper, ?_⟩
  have key : ∀ (G : List Group) (ops : List (Opd V)), Fits G ops →
      (G.map Group.n).sum + G.length = ops.length + 1 := by
    intro G
    induction G with
    | nil => intro ops h; exact h.elim
    | cons g gs ih =>
      intro ops h
      cases gs with
      | nil => simp [h.1]
      | cons g' gs =>
        obtain ⟨a, op, b, rfl, h1, _, _, _, _, _, h2⟩ := h
        have := ih b h2
        simp at this ⊢
        omega
  have := key _ _ J.fits
  simpa [List.map_map, Function.comp_def] using this

/-! ### Examples and counterexamples -/

/-- An operand that is not able to work in place: adds n. -/
def opOut (n : Int) : Opd Int :=
  { f := fun x => x + n, inplace := false, junk := fun _ => 0, scribble := id }

/-- An operand that works in place: multiplies by n. -/
def opIn (n : Int) : Opd Int :=
  { f := fun x => n * x, inplace := true, junk := fun _ => 0, scribble := id }

/-- An operand that takes temporary buffers from the pool. -/
def opPool (n : Int) : Opd Int :=
  { f := fun x => x + n, inplace := false, usesPool := true, junk := fun _ => 0, scribble := fun _ => 99 }

def sh3 : Sh := ⟨[3], 8⟩

def arr (id : Nat) : Arr := ⟨id, sh3, true, true⟩

/-- The memory before the call: the zone 0 holds 5 (the input), the zone 1 holds 100 (the output), the zone 2 is in
the pool. -/
def mem0 : St Int := ⟨fun b => if b = 0 then 5 else if b = 1 then 100 else 0, [arr 2], 3⟩

/-- The contents of the zones 0 and 1 after a call. -/
def outcome (r : Except Err (St Int)) : Except Err (Int × Int) := r.map (fun s => (s.mem 0, s.mem 1))

/-- Hypotheses of C17_out_of_place_partial: a composition of four operands, the result of which is 3*(2*(5+1)+10). -/
example : Ready mem0 (arr 0) (arr 1) ∧
    Validated [opIn 3, opOut 10, opIn 2, opOut 1] [sh3, sh3, sh3, sh3] (arr 0) (arr 1) ∧
    InplaceReq [opIn 3, opOut 10, opIn 2, opOut 1] ∧
    (∀ op ∈ [opIn 3, opOut 10, opIn 2, opOut 1], op.usesPool = false) ∧
    outcome (direct noTol [opIn 3, opOut 10, opIn 2, opOut 1] [sh3, sh3, sh3, sh3] (arr 0) (arr 1) none true mem0) =
      .ok (5, 66) := by
  refine ⟨⟨by decide, by simp [mem0, arr], by simp [mem0, arr], by simp [mem0, arr]⟩,
    ⟨by simp, rfl, rfl, by simp [opIn, opOut], by simp [opIn, opOut]⟩, by simp [InplaceReq, opIn, opOut],
    by simp [opIn, opOut], by decide⟩

/-- Hypotheses of C17_in_place_partial: two operands do not work in place. -/
example : Ready mem0 (arr 0) (arr 0) ∧
    Validated [opOut 10, opIn 2, opOut 1] [sh3, sh3, sh3] (arr 0) (arr 0) ∧
    InplaceReq [opOut 10, opIn 2, opOut 1] ∧
    ([opOut 10, opIn 2, opOut 1].filter (fun o => !o.inplace)).length ≠ 1 ∧
    outcome (direct noTol [opOut 10, opIn 2, opOut 1] [sh3, sh3, sh3] (arr 0) (arr 0) none true mem0) =
      .ok (22, 100) := by
  refine ⟨⟨by decide, by simp [mem0, arr], by simp [mem0, arr], by simp [mem0, arr]⟩,
    ⟨by simp, rfl, rfl, by simp [opOut], by simp [opOut]⟩, by simp [InplaceReq, opIn, opOut],
    by simp [opIn, opOut], by decide⟩

/-- C17 fails for the calls in place: an operand that is not able to work in place is given twice the same array when it is
the only one of its kind, as in `(2 * P)(x, x)`. -/
theorem C17_in_place_fails : ∃ (ops : List (Opd Int)) (shs : List Sh) (x : Arr) (s s' : St Int),
    Ready s x x ∧ Validated ops shs x x ∧ InplaceReq ops ∧ (∀ op ∈ ops, op.usesPool = false) ∧
      direct noTol ops shs x x none true s = .ok s' ∧ s'.mem x.id ≠ ops.foldr (fun o x => o.f x) (s.mem x.id) := by
  refine ⟨[opIn 2, opOut 1], [sh3, sh3], arr 0, mem0, _,
    ⟨by decide, by simp [mem0, arr], by simp [mem0, arr], by simp [mem0, arr]⟩,
    ⟨by simp, rfl, rfl, by simp [opOut], by simp [opIn]⟩, by simp [InplaceReq, opIn, opOut], by simp [opIn, opOut],
    rfl, by decide⟩

/-- C17 fails if an operand takes temporary buffers from the pool: when the output holds the intermediate result that this
operand reads, it is nevertheless put in the pool. -/
theorem C17_pool_fails : ∃ (ops : List (Opd Int)) (shs : List Sh) (x y : Arr) (s s' : St Int), x.id ≠ y.id ∧
    Ready s x y ∧ Validated ops shs x y ∧ InplaceReq ops ∧ y.contiguous = true ∧
      direct noTol ops shs x y none true s = .ok s' ∧ s'.mem y.id ≠ ops.foldr (fun o x => o.f x) (s.mem x.id) := by
  refine ⟨[opOut 1, opPool 1, opOut 1], [sh3, sh3, sh3], arr 0, arr 1, mem0, _, by decide,
    ⟨by decide, by simp [mem0, arr], by simp [mem0, arr], by simp [mem0, arr]⟩,
    ⟨by simp, rfl, rfl, by simp [opOut], by simp [opOut]⟩, by simp [InplaceReq, opPool, opOut], rfl,
    rfl, by decide⟩

/-- C17 fails if the output is not contiguous and an intermediate result of another shape is to be stored in it: an error is
raised. -/
theorem C17_noncontiguous_fails : ∃ (ops : List (Opd Int)) (shs : List Sh) (x y : Arr) (s : St Int), x.id ≠ y.id ∧
    Ready s x y ∧ Validated ops shs x y ∧ InplaceReq ops ∧ (∀ op ∈ ops, op.usesPool = false) ∧
      (∀ sh ∈ shs, sh.nbytes = y.sh.nbytes) ∧ direct noTol ops shs x y none true s = .error .value := by
  refine ⟨[opIn 1, opOut 1], [sh3, ⟨[3, 1], 8⟩], arr 0, { arr 1 with contiguous := false }, mem0, by decide,
    ⟨by decide, by simp [mem0, arr], by simp [mem0, arr], by simp [mem0, arr]⟩,
    ⟨by simp, rfl, rfl, by simp [opOut], by simp [opIn]⟩, by simp [InplaceReq, opIn, opOut], by simp [opIn, opOut],
    by decide, rfl⟩

/-- C17: an operand that works in place and has a requirement on its output but not on its input can be given an array
that does not meet it. -/
theorem C17_requirements_fails : ∃ (ops : List (Opd Int)) (shs : List Sh) (x y : Arr) (s : St Int), x.id ≠ y.id ∧
    Ready s x y ∧ Validated ops shs x y ∧ (∀ op ∈ ops, op.usesPool = false) ∧ y.contiguous = true ∧
      direct noTol ops shs x y none true s = .error .requirement := by
  refine ⟨[opOut 1, { opIn 2 with alignedOut := true }, opOut 1], [sh3, sh3, sh3], arr 0, arr 1,
    { mem0 with pool := [{ arr 2 with aligned := false }] }, by decide,
    ⟨by decide, by simp [mem0, arr], by simp [mem0, arr], by simp [mem0, arr]⟩,
    ⟨by simp, rfl, rfl, by simp [opOut], by simp [opOut]⟩, by simp [opIn, opOut], rfl, rfl⟩

/-- Hypotheses of C57_update_partial. -/
example : Ready mem0 (arr 0) (arr 1) ∧ Validated [opOut 10, opIn 2, opOut 1] [sh3, sh3, sh3] (arr 0) (arr 1) ∧
    InplaceReq [opOut 10, opIn 2, opOut 1] ∧ (∀ op ∈ [opOut 10, opIn 2, opOut 1].head?, op.inplace = false) ∧
    outcome (direct noTol [opOut 10, opIn 2, opOut 1] [sh3, sh3, sh3] (arr 0) (arr 1) (some (· + ·)) true mem0) =
      .ok (5, 122) := by
  refine ⟨⟨by decide, by simp [mem0, arr], by simp [mem0, arr], by simp [mem0, arr]⟩,
    ⟨by simp, rfl, rfl, by simp [opOut], by simp [opOut]⟩, by simp [InplaceReq, opIn, opOut],
    by simp [opOut], by decide⟩

/-- C57 fails if the first operand works in place: the output is overwritten by the operand before it, and the operation
is not done. -/
theorem C57_in_place_first_fails : ∃ (ops : List (Opd Int)) (shs : List Sh) (x y : Arr) (s s' : St Int), x.id ≠ y.id ∧
    Ready s x y ∧ Validated ops shs x y ∧ InplaceReq ops ∧ (∀ op ∈ ops, op.usesPool = false) ∧ y.contiguous = true ∧
      direct noTol ops shs x y (some (· + ·)) true s = .ok s' ∧
      s'.mem y.id = ops.foldr (fun o x => o.f x) (s.mem x.id) ∧ s.mem y.id ≠ 0 := by
  refine ⟨[opIn 2, opOut 1], [sh3, sh3], arr 0, arr 1, mem0, _, by decide,
    ⟨by decide, by simp [mem0, arr], by simp [mem0, arr], by simp [mem0, arr]⟩,
    ⟨by simp, rfl, rfl, by simp [opOut], by simp [opIn]⟩, by simp [InplaceReq, opIn, opOut], by simp [opIn, opOut], rfl,
    rfl, by decide, by decide⟩

/-- C57 fails if an operand takes temporary buffers from the pool: the output to be updated is put in the pool. -/
theorem C57_pool_fails : ∃ (ops : List (Opd Int)) (shs : List Sh) (x y : Arr) (s s' : St Int), x.id ≠ y.id ∧
    Ready s x y ∧ Validated ops shs x y ∧ InplaceReq ops ∧ (∀ op ∈ ops.head?, op.inplace = false) ∧
      y.contiguous = true ∧ direct noTol ops shs x y (some (· + ·)) true s = .ok s' ∧
      s'.mem y.id ≠ s.mem y.id + ops.foldr (fun o x => o.f x) (s.mem x.id) := by
  refine ⟨[opOut 1, opPool 1], [sh3, sh3], arr 0, arr 1, { mem0 with pool := [] }, _, by decide,
    ⟨by decide, by simp, by simp [mem0, arr], by simp [mem0, arr]⟩,
    ⟨by simp, rfl, rfl, by simp [opPool], by simp [opOut]⟩, by simp [InplaceReq, opPool, opOut], by simp [opOut], rfl,
    rfl, by decide⟩

/-- Hypotheses of C18_large_enough: three groups, of which the second one has a buffer of 80 bytes for its two operands. -/
example : getInfo [opOut 1, opIn 2, opOut 3] [sh3, ⟨[10], 8⟩, ⟨[4], 8⟩] (arr 0) (arr 1) true =
    .ok ([(⟨0, false, false⟩, 24)] ++ (⟨1, false, false⟩, 80) :: [(⟨0, false, false⟩, 32)]) := by decide

/-- Hypotheses of C18_number_of_groups: the last and first operands are made out of place. -/
example : Validated (opIn 1 :: ([opOut 2] ++ [opIn 3])) [sh3, ⟨[10], 8⟩, ⟨[4], 8⟩] (arr 0) (arr 1) ∧
    InplaceReq (opIn 1 :: ([opOut 2] ++ [opIn 3])) ∧
    (getInfo (opIn 1 :: ([opOut 2] ++ [opIn 3])) [sh3, ⟨[10], 8⟩, ⟨[4], 8⟩] (arr 0) (arr 1) true).toOption.map
      List.length = some 4 := by
  refine ⟨⟨by simp, rfl, rfl, by simp [opIn], by simp [opIn]⟩, by simp [InplaceReq, opIn, opOut], by decide⟩

end Verif.Compose
