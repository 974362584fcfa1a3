import Mathlib.Data.List.Basic
import Mathlib.Data.List.Range
import Mathlib.Data.List.Count
import Mathlib.Data.List.Nodup
import Mathlib.Logic.Function.Iterate
import Verif.Split.Lemmas

/-!
# C103: groups of processes, messages and totals

The helpers of src/pyoperators/utils/mpi.py on top of the collective functions of MPI. The processes are numbered by their ranks; what they pass is a list indexed by the ranks.
-/

namespace Verif.Utils.Group

/-! ### Model: the collective functions of MPI (trusted) -/

/-- The group of the processes of a colour that `MPI_Comm_split` makes: sorted by the keys, and by the ranks for equal keys. `ps` are the colours and keys by rank. -/
def members (ps : List (Nat × Nat)) (color : Nat) : List Nat :=
  ((List.range ps.length).filter fun r => (ps.getD r (0, 0)).1 == color).mergeSort fun a b =>
    decide ((ps.getD a (0, 0)).2 < (ps.getD b (0, 0)).2 ∨ ((ps.getD a (0, 0)).2 = (ps.getD b (0, 0)).2 ∧ a ≤ b))

/-- The sum of 64-bit integers, which wraps around. -/
def wrap (n : Int) : Int := (n + 2 ^ 63) % 2 ^ 64 - 2 ^ 63

/-! ### Model: pyoperators -/

/-- The colours and keys passed by the processes: src/pyoperators/utils/mpi.py:192. -/
def colours (conds : List Bool) : List (Nat × Nat) := (List.range conds.length).map fun r => ((conds.getD r false).toNat, r)

/-- The value of the context manager for the process of rank `r`, as the list of the members of the communicator: src/pyoperators/utils/mpi.py:167-196. -/
def filterComm (conds : List Bool) (r : Nat) : Option (List Nat) :=
  if conds.getD r false then some (members (colours conds) 1) else none

/-- Programs of a process: other instructions, an exception, the statement `with filter_comm(...)` and sequences. -/
inductive Prog where
  | skip
  | raise
  | session (body : Prog)
  | seq (p q : Prog)

/-- The number of communicators that have been created and not freed after the program, from their number before, and whether the program raises: src/pyoperators/utils/mpi.py:191-199. The generator of the context manager has no `try`: if the body raises an exception, it is raised by `yield`, and the rest of the generator is not executed. -/
def Prog.exec (live : Nat) : Prog → Nat × Bool
  | .skip => (live, false)
  | .raise => (live, true)
  | .session p => let r := p.exec (live + 1); if r.2 then r else (r.1 - 1, false)
  | .seq p q => let r := p.exec live; if r.2 then r else q.exec r.1

/-- The program contains no exception. -/
def Prog.calm : Prog → Prop
  | .skip => True
  | .raise => False
  | .session p => p.calm
  | .seq p q => p.calm ∧ q.calm

/-- An object to be printed: its text, and the result of `==` with another object (`none` if its truth value is an error, as for arrays). -/
structure Obj where
  text : String
  kind : Nat

/-- Objects of kind 0 are texts, of kind 1 numbers (compared by value, here their integer value), of kind 2 NaN and of any other kind arrays of several elements. -/
def Obj.eq (number : String → Int) (a b : Obj) : Option Bool :=
  if a.kind ≥ 3 ∨ b.kind ≥ 3 then none
  else if a.kind = 0 ∧ b.kind = 0 then some (a.text == b.text)
  else if a.kind = 1 ∧ b.kind = 1 then some (number a.text == number b.text)
  else some false

/-- `all(m == msgs[0] for m in msgs)`. -/
def allEq (number : String → Int) (m0 : Obj) : List Obj → Option Bool
  | [] => some true
  | m :: ms => (m.eq number m0).bind fun b => if b then allEq number m0 ms else some false

/-- The lines printed by the process of rank `r`: src/pyoperators/utils/mpi.py:202-216; `none` is an exception. Printing a text with several lines prints several lines; here a text is one entry. -/
def mprint (number : String → Int) (msgs : List Obj) (r : Nat) : Option (List String) :=
  if r = 0 then
    match msgs with
    | [] => some []
    | m :: _ => (allEq number m msgs).map fun b => if b then [m.text] else msgs.mapIdx fun i m => "Rank " ++ toString i ++ ": " ++ m.text
  else some []

/-- `combine`: src/pyoperators/utils/mpi.py:69-76, for numbers that NumPy stores as 64-bit integers. -/
def combine (ns : List Int) : Int := ns.foldl (fun a n => wrap (a + n)) 0

/-! ### Property C103 -/

theorem colours_getD (conds : List Bool) (r : Nat) (h : r < conds.length) : (colours conds).getD r (0, 0) = ((conds.getD r false).toNat, r) := by
  simp [colours, List.getD_eq_getElem?_getD, List.getElem?_map, List.getElem?_range h]

theorem members_colours (conds : List Bool) : members (colours conds) 1 = (List.range conds.length).filter fun r => conds.getD r false := by
  have hl : (colours conds).length = conds.length := by simp [colours]
  have hf : ((List.range conds.length).filter fun r => ((colours conds).getD r (0, 0)).1 == 1) = (List.range conds.length).filter fun r => conds.getD r false := by
    refine List.filter_congr fun r hr => ?_
    rw [colours_getD conds r (List.mem_range.1 hr)]
    cases conds.getD r false <;> rfl
  rw [members, hl, hf]
  refine List.mergeSort_of_pairwise ?_
  refine List.Pairwise.imp_of_mem ?_ (List.pairwise_lt_range.filter _)
  intro a b ha hb hab
  rw [colours_getD conds a (List.mem_range.1 (List.mem_filter.1 ha).1), colours_getD conds b (List.mem_range.1 (List.mem_filter.1 hb).1)]
  simp only [decide_eq_true_eq]
  exact Or.inl hab

theorem count_take (conds : List Bool) : ∀ r, r ≤ conds.length → ((List.range r).filter fun q => conds.getD q false).length = (conds.take r).count true
  | 0, _ => rfl
  | r + 1, h => by
    have hr : r < conds.length := h
    rw [List.range_succ, List.filter_append, List.length_append, count_take conds r (Nat.le_of_lt hr), List.take_succ, List.count_append]
    simp only [List.getElem?_eq_getElem hr, Option.toList, List.filter_cons, List.filter_nil, List.getD_eq_getElem?_getD, Option.getD_some]
    cases conds[r] <;> rfl

/-- For all numbers of processes and conditions: a process that does not meet the condition gets None; the others get the communicator of exactly the processes that meet it, in the order of their ranks, in which the rank of a process is the number of the processes before it that meet the condition. -/
theorem C103_filter (conds : List Bool) (r : Nat) (h : r < conds.length) :
    (conds[r] = false → filterComm conds r = none) ∧
    (conds[r] = true → ∃ g, filterComm conds r = some g ∧ g.Pairwise (· < ·) ∧ (∀ q, q ∈ g ↔ conds[q]? = some true) ∧ g[(conds.take r).count true]? = some r) := by
  have hd : conds.getD r false = conds[r] := by rw [List.getD_eq_getElem?_getD, List.getElem?_eq_getElem h]; rfl
  refine ⟨fun hc => by rw [filterComm, hd, hc]; rfl, fun hc => ⟨_, by rw [filterComm, hd, hc, if_pos rfl], ?_, ?_, ?_⟩⟩
  · rw [members_colours]
    exact List.pairwise_lt_range.filter _
  · intro q
    rw [members_colours, List.mem_filter, List.mem_range, List.getD_eq_getElem?_getD]
    constructor
    · rintro ⟨hq, hv⟩
      rw [List.getElem?_eq_getElem hq] at hv ⊢
      rw [Option.getD_some] at hv
      rw [hv]
    · intro hq
      obtain ⟨hlt, -⟩ := List.getElem?_eq_some_iff.1 hq
      exact ⟨hlt, by rw [hq]; rfl⟩
  · rw [members_colours]
    have hsplit : List.range conds.length = List.range r ++ r :: (List.range (conds.length - r - 1)).map (r + 1 + ·) := by
      have h1 : conds.length = r + 1 + (conds.length - r - 1) := by omega
      rw [h1, List.range_add, List.range_succ, List.append_assoc]
      have h2 : r + 1 + (conds.length - r - 1) - r - 1 = conds.length - r - 1 := by omega
      rw [h2]
      rfl
    rw [hsplit, List.filter_append, ← count_take conds r (Nat.le_of_lt h), List.getElem?_append_right (Nat.le_refl _), Nat.sub_self, List.filter_cons, hd, hc]
    rfl

example : filterComm [false, true, true, false, true] 2 = some [1, 2, 4] := by
  rw [filterComm, members_colours]
  decide

theorem exec_calm (p : Prog) (h : p.calm) : ∀ live, p.exec live = (live, false) := by
  induction p with
  | skip => exact fun _ => rfl
  | raise => exact h.elim
  | session p ih =>
    intro live
    simp only [Prog.exec, ih h (live + 1)]
    rfl
  | seq p q ihp ihq =>
    intro live
    simp only [Prog.exec, ihp h.1 live]
    exact ihq h.2 live

/-- For all programs, with any nested groups, in which no exception is raised: all the communicators that are created are freed. -/
theorem C103_free_partial (p : Prog) (h : p.calm) (live : Nat) : (p.exec live).1 = live := by rw [exec_calm p h]

example : (Prog.exec 0 (.seq (.session (.session .skip)) (.session .skip))).1 = 0 := C103_free_partial (.seq (.session (.session .skip)) (.session .skip)) ⟨trivial, trivial⟩ 0

/-- The communicator is not freed if the body raises an exception, and this for each of the nested groups: after `n` nested statements, `n` communicators are lost. -/
theorem C103_free_fails (n live : Nat) : ((Prog.session^[n] .raise).exec live) = (live + n, true) := by
  induction n generalizing live with
  | zero => rfl
  | succ n ih =>
    rw [Function.iterate_succ_apply']
    simp only [Prog.exec, ih, if_true]
    rw [Nat.add_assoc, Nat.add_comm 1]

theorem allEq_text (number : String → Int) (m0 : Obj) (h0 : m0.kind = 0) : ∀ ms : List Obj, (∀ m ∈ ms, m.kind = 0) → allEq number m0 ms = some (ms.all fun m => m.text == m0.text)
  | [], _ => rfl
  | m :: ms, h => by
    have hk := h m (List.mem_cons_self ..)
    rw [allEq, Obj.eq, hk, h0]
    simp only [ge_iff_le, or_self, and_self, if_true]
    rw [allEq_text number m0 h0 ms (fun m hm => h m (List.mem_cons_of_mem _ hm)), List.all_cons]
    cases m.text == m0.text <;> rfl

/-- For all numbers of processes and texts: only the process of rank 0 prints; it prints the text once if it is the same for all the processes, and otherwise the texts of all the processes with their ranks, in the order of the ranks. -/
theorem C103_print_partial (number : String → Int) (msgs : List Obj) (hk : ∀ m ∈ msgs, m.kind = 0) (hne : msgs ≠ []) :
    (∀ r, r ≠ 0 → mprint number msgs r = some []) ∧
    (∀ t, (∀ m ∈ msgs, m.text = t) → mprint number msgs 0 = some [t]) ∧
    ((∃ m ∈ msgs, ∃ m' ∈ msgs, m.text ≠ m'.text) → ∃ ls, mprint number msgs 0 = some ls ∧ ls.length = msgs.length ∧
      ∀ (i : Nat) (m : Obj), msgs[i]? = some m → ls[i]? = some ("Rank " ++ toString i ++ ": " ++ m.text)) := by
  obtain ⟨m0, ms, rfl⟩ := List.exists_cons_of_ne_nil hne
  have ha := allEq_text number m0 (hk m0 (List.mem_cons_self ..)) (m0 :: ms) hk
  refine ⟨fun r hr => by rw [mprint, if_neg hr], fun t ht => ?_, ?_⟩
  · have : ((m0 :: ms).all fun m => m.text == m0.text) = true := by
      rw [List.all_eq_true]
      intro m hm
      rw [ht m hm, ht m0 (List.mem_cons_self ..)]
      exact beq_self_eq_true t
    rw [mprint, if_pos rfl]
    simp only [ha, this, Option.map_some, if_true]
    rw [ht m0 (List.mem_cons_self ..)]
  · rintro ⟨m, hm, m', hm', hd⟩
    have : ((m0 :: ms).all fun m => m.text == m0.text) = false := by
      rw [Bool.eq_false_iff]
      intro hall
      rw [List.all_eq_true] at hall
      exact hd ((eq_of_beq (hall m hm)).trans (eq_of_beq (hall m' hm')).symm)
    refine ⟨(m0 :: ms).mapIdx fun i m => "Rank " ++ toString i ++ ": " ++ m.text, ?_, List.length_mapIdx, fun i m hi => ?_⟩
    · rw [mprint, if_pos rfl]
      simp only [ha, this, Option.map_some]
      rfl
    · rw [List.getElem?_mapIdx, hi]
      rfl

example (number : String → Int) : mprint number [⟨"a", 0⟩, ⟨"b", 0⟩] 0 = some ["Rank 0: a", "Rank 1: b"] ∧ mprint number [⟨"a", 0⟩, ⟨"a", 0⟩] 0 = some ["a"] := by
  constructor <;> rfl

/-- Objects that are not texts are compared by `==`: NaN is printed with a rank although all the messages are the same; numbers that are equal but not printed in the same way, as 1 and True, are taken for the same message; and arrays raise an exception. -/
theorem C103_print_fails : (∀ number, mprint number [⟨"nan", 2⟩] 0 = some ["Rank 0: nan"]) ∧
    mprint (fun _ => 1) [⟨"1", 1⟩, ⟨"True", 1⟩] 0 = some ["1"] ∧ (∀ number, mprint number [⟨"[0 1]", 3⟩, ⟨"[0 1]", 3⟩] 0 = none) :=
  ⟨fun _ => rfl, rfl, fun _ => rfl⟩

theorem wrap_id (n : Int) (h0 : -2 ^ 63 ≤ n) (h1 : n < 2 ^ 63) : wrap n = n := by
  rw [wrap, Int.emod_eq_of_lt (by omega) (by omega)]
  omega

theorem sum_nonneg (ns : List Int) (h : ∀ n ∈ ns, 0 ≤ n) : 0 ≤ ns.sum := by
  induction ns with
  | nil => exact Int.le_refl _
  | cons n ns ih =>
    have := h n (List.mem_cons_self ..)
    have := ih fun x hx => h x (List.mem_cons_of_mem _ hx)
    rw [List.sum_cons]
    omega

theorem combine_aux (ns : List Int) (h : ∀ n ∈ ns, 0 ≤ n) (a : Int) (ha : 0 ≤ a) (hs : a + ns.sum < 2 ^ 63) : ns.foldl (fun a n => wrap (a + n)) a = a + ns.sum := by
  induction ns generalizing a with
  | nil => simp
  | cons n ns ih =>
    have hn := h n (List.mem_cons_self ..)
    have hr : 0 ≤ ns.sum := sum_nonneg ns fun x hx => h x (List.mem_cons_of_mem _ hx)
    rw [List.sum_cons] at hs ⊢
    rw [List.foldl_cons, wrap_id (a + n) (by omega) (by omega), ih (fun x hx => h x (List.mem_cons_of_mem _ hx)) _ (by omega) (by omega)]
    omega

/-- For all numbers of processes: `combine` returns the total number of work items, if it is smaller than 2^63; in particular the numbers of items that are distributed over processes are combined into their total. -/
theorem C103_combine_partial (ns : List Nat) (h : ns.sum < 2 ^ 63) : combine (ns.map fun n : Nat => (n : Int)) = (ns.sum : Nat) := by
  have hs : (ns.map fun n : Nat => (n : Int)).sum = (ns.sum : Nat) := by
    clear h
    induction ns with
    | nil => rfl
    | cons n ns ih => rw [List.map_cons, List.sum_cons, List.sum_cons, ih]; omega
  rw [combine, combine_aux _ (fun n hn => by obtain ⟨k, -, rfl⟩ := List.mem_map.1 hn; omega) 0 (Int.le_refl _) (by rw [hs]; omega), hs]
  omega

/-- The numbers of items of the slices made by `split` are combined into the number of items. -/
theorem C103_combine_split (n m : Nat) (hm : 0 < m) (hn : n < 2 ^ 63) :
    combine ((Split.split n m).map fun s => (s.stop : Int) - s.start) = n := by
  have h1 : (Split.split n m).map (fun s => (s.stop : Int) - s.start) = ((List.range m).map (Split.work n m)).map fun k : Nat => (k : Int) := by
    rw [Split.split_eq, List.map_map, List.map_map]
    refine List.map_congr_left fun k _ => ?_
    simp only [Function.comp]
    rw [Split.startOf_succ]
    omega
  have h2 : ((List.range m).map (Split.work n m)).sum = n := by rw [Split.sum_work, Split.startOf_last n m hm]
  rw [h1, C103_combine_partial _ (by rw [h2]; exact hn), h2]

example : combine ((Split.split 10 4).map fun s => (s.stop : Int) - s.start) = 10 := C103_combine_split 10 4 (by decide) (by decide)

/-- The total wraps around: two processes with 2^62 items each have a negative number of items together. -/
theorem C103_combine_fails : combine [2 ^ 62, 2 ^ 62] = -2 ^ 63 := by decide

end Verif.Utils.Group
