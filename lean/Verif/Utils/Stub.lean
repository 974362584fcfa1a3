import Mathlib.Tactic.Cases
import Mathlib.Tactic.ByContra

/-
Model of the module that replaces mpi4py if it is not installed: src/pyoperators/utils/fake_MPI.py:104-209; and property C102.
-/

namespace Verif.Utils.Stub

variable {V : Type}

/-! ### Model: attributes of communicators -/

/-- The commands of a program that uses attributes.  The n-th key and the n-th communicator that the program creates are designated by n; the communicator 0 is COMM_WORLD. -/
inductive Cmd (V : Type) where
  | create (copy : Bool)
  | free (h : Nat)
  | set (c h : Nat) (v : V)
  | get (c h : Nat)
  | del (c h : Nat)
  | dup (c : Nat)

inductive Out (V : Type) where
  | done
  | value (v : Option V)
  | error
deriving DecidableEq

/-- The keys that the class attribute `_keyvals` contains and the attribute `_attr` of the communicators: src/pyoperators/utils/fake_MPI.py:105-110; `ids` are the values returned to the program. -/
structure Stub (V : Type) where
  ids : List Nat
  keyvals : List Nat
  attrs : List (Nat → Option V)

def Stub.initial : Stub V := ⟨[], [], [fun _ => none]⟩

def put (f : Nat → Option V) (k : Nat) (v : Option V) : Nat → Option V := fun j => if j = k then v else f j

/-- `Create_keyval`: src/pyoperators/utils/fake_MPI.py:159-165. -/
def fresh (keyvals : List Nat) : Nat := if keyvals = [] then 1 else keyvals.foldr max 0 + 1

/-- A command of the stub: src/pyoperators/utils/fake_MPI.py:147-148 (`Dup`) and 159-188.  The functions copy_fn and delete_fn are stored but not used. -/
def Stub.step (s : Stub V) : Cmd V → Stub V × Out V
  | .create _ => ({ s with ids := s.ids ++ [fresh s.keyvals], keyvals := fresh s.keyvals :: s.keyvals }, .done)
  | .free h =>
    match s.ids[h]? with
    | none => (s, .error)
    | some k => if k ∈ s.keyvals then ({ s with keyvals := s.keyvals.filter (· ≠ k) }, .done) else (s, .error)
  | .set c h v =>
    match s.ids[h]?, s.attrs[c]? with
    | some k, some f => if k ∈ s.keyvals then ({ s with attrs := s.attrs.set c (put f k (some v)) }, .done) else (s, .error)
    | _, _ => (s, .error)
  | .get c h =>
    match s.ids[h]?, s.attrs[c]? with
    | some k, some f => if k ∈ s.keyvals then (s, .value (f k)) else (s, .error)
    | _, _ => (s, .error)
  | .del c h =>
    match s.ids[h]?, s.attrs[c]? with
    | some k, some f => if f k = none then (s, .error) else ({ s with attrs := s.attrs.set c (put f k none) }, .done)
    | _, _ => (s, .error)
  | .dup c =>
    match s.attrs[c]? with
    | some _ => ({ s with attrs := s.attrs ++ [fun _ => none] }, .done)
    | none => (s, .error)

def Stub.run (s : Stub V) : List (Cmd V) → List (Out V)
  | [] => []
  | c :: cs => (s.step c).2 :: (s.step c).1.run cs

/-! ### Specification: the attributes of MPI -/

/-- MPI: a key is never another one, and is invalid after it has been freed; the attributes of a duplicated communicator are those whose keys have been created with copy_fn=True. -/
structure Mpi (V : Type) where
  keys : List (Bool × Bool)
  attrs : List (Nat → Option V)

def Mpi.initial : Mpi V := ⟨[], [fun _ => none]⟩

/-- The key has been created and not been freed. -/
def Mpi.valid (m : Mpi V) (h : Nat) : Bool := match m.keys[h]? with | some k => k.2 | none => false

def Mpi.copied (m : Mpi V) (h : Nat) : Bool := match m.keys[h]? with | some k => k.1 | none => false

def Mpi.step (m : Mpi V) : Cmd V → Mpi V × Out V
  | .create copy => ({ m with keys := m.keys ++ [(copy, true)] }, .done)
  | .free h => if m.valid h then ({ m with keys := m.keys.set h (m.copied h, false) }, .done) else (m, .error)
  | .set c h v =>
    match m.attrs[c]? with
    | some f => if m.valid h then ({ m with attrs := m.attrs.set c (put f h (some v)) }, .done) else (m, .error)
    | none => (m, .error)
  | .get c h =>
    match m.attrs[c]? with
    | some f => if m.valid h then (m, .value (f h)) else (m, .error)
    | none => (m, .error)
  | .del c h =>
    match m.attrs[c]? with
    | some f => if m.valid h ∧ f h ≠ none then ({ m with attrs := m.attrs.set c (put f h none) }, .done) else (m, .error)
    | none => (m, .error)
  | .dup c =>
    match m.attrs[c]? with
    | some f => ({ m with attrs := m.attrs ++ [fun h => if m.copied h then f h else none] }, .done)
    | none => (m, .error)

def Mpi.run (m : Mpi V) : List (Cmd V) → List (Out V)
  | [] => []
  | c :: cs => (m.step c).2 :: (m.step c).1.run cs

/-- The program does not use the keys that it has freed, frees a key only when no communicator has an attribute for it, and does not duplicate a communicator with an attribute to be copied. -/
def Mpi.Careful (m : Mpi V) : List (Cmd V) → Prop
  | [] => True
  | c :: cs =>
    (match c with
      | .create _ => True
      | .free h => m.valid h = true ∧ ∀ f ∈ m.attrs, f h = none
      | .set _ h _ => m.valid h = true
      | .get _ h => m.valid h = true
      | .del _ h => m.valid h = true
      | .dup c => ∀ f, m.attrs[c]? = some f → ∀ h, m.copied h = true → f h = none) ∧
    (m.step c).1.Careful cs

/-! ### Simulation -/

theorem le_foldr_max (l : List Nat) (k : Nat) (h : k ∈ l) : k ≤ l.foldr max 0 := by
  induction l with
  | nil => cases h
  | cons a l ih =>
    rcases List.mem_cons.1 h with rfl | h
    · exact Nat.le_max_left _ _
    · exact Nat.le_trans (ih h) (Nat.le_max_right _ _)

theorem fresh_not_mem (l : List Nat) : fresh l ∉ l := by
  intro h
  by_cases hl : l = []
  · rw [hl] at h; cases h
  · rw [fresh, if_neg hl] at h
    have := le_foldr_max l _ h
    omega

/-- The valid keys have different numbers, which are those of `_keyvals`, and the attributes are the same; there are no attributes for other numbers. -/
structure Sim (s : Stub V) (m : Mpi V) : Prop where
  count : s.ids.length = m.keys.length
  comms : s.attrs.length = m.attrs.length
  mem : ∀ k : Nat, k ∈ s.keyvals ↔ ∃ h, m.valid h = true ∧ s.ids[h]? = some k
  inj : ∀ h h' k : Nat, m.valid h = true → m.valid h' = true → s.ids[h]? = some k → s.ids[h']? = some k → h = h'
  same : ∀ (c : Nat) (f g : Nat → Option V), s.attrs[c]? = some f → m.attrs[c]? = some g → ∀ (h k : Nat), m.valid h = true → s.ids[h]? = some k → f k = g h
  clean : ∀ f ∈ s.attrs, ∀ k, k ∉ s.keyvals → f k = none
  old : ∀ g ∈ m.attrs, ∀ h, m.valid h = false → g h = none

theorem Sim.initial : Sim (Stub.initial (V := V)) Mpi.initial where
  count := rfl
  comms := rfl
  mem := by intro k; simp [Stub.initial, Mpi.initial, Mpi.valid]
  inj := by intro h h' k hv; simp [Mpi.initial, Mpi.valid] at hv
  same := by intro c f g _ _ h k hv; simp [Mpi.initial, Mpi.valid] at hv
  clean := by intro f hf k _; simp only [Stub.initial, List.mem_singleton] at hf; rw [hf]
  old := by intro f hf k _; simp only [Mpi.initial, List.mem_singleton] at hf; rw [hf]

theorem Sim.id {s : Stub V} {m : Mpi V} (h : Sim s m) {i : Nat} (hv : m.valid i = true) : ∃ k, s.ids[i]? = some k ∧ k ∈ s.keyvals := by
  have hl : i < m.keys.length := by
    by_contra hc
    rw [Mpi.valid, List.getElem?_eq_none (by omega)] at hv
    cases hv
  have hl' : i < s.ids.length := by rw [h.count]; exact hl
  have : s.ids[i]? = some s.ids[i] := List.getElem?_eq_getElem hl'
  exact ⟨_, this, (h.mem _).2 ⟨i, hv, this⟩⟩

theorem Sim.comm {s : Stub V} {m : Mpi V} (h : Sim s m) (c : Nat) : (s.attrs[c]? = none ∧ m.attrs[c]? = none) ∨ ∃ f g, s.attrs[c]? = some f ∧ m.attrs[c]? = some g := by
  by_cases hc : c < s.attrs.length
  · exact .inr ⟨_, _, List.getElem?_eq_getElem hc, List.getElem?_eq_getElem (by rw [← h.comms]; exact hc)⟩
  · exact .inl ⟨List.getElem?_eq_none (by omega), List.getElem?_eq_none (by rw [← h.comms]; omega)⟩

theorem valid_append (m : Mpi V) (copy : Bool) (h : Nat) : (Mpi.valid { m with keys := m.keys ++ [(copy, true)] } h = true) ↔ m.valid h = true ∨ h = m.keys.length := by
  simp only [Mpi.valid]
  by_cases h1 : h < m.keys.length
  · rw [List.getElem?_append_left h1]
    constructor
    · exact .inl
    · rintro (h | h)
      · exact h
      · omega
  · rw [List.getElem?_append_right (by omega), List.getElem?_eq_none (l := m.keys) (by omega)]
    by_cases h2 : h = m.keys.length
    · subst h2; simp
    · rw [List.getElem?_eq_none (by simp; omega)]
      simp [h2]

theorem valid_free (m : Mpi V) (h j : Nat) (c : Bool) : (Mpi.valid { m with keys := m.keys.set h (c, false) } j = true) ↔ m.valid j = true ∧ j ≠ h := by
  simp only [Mpi.valid, List.getElem?_set]
  by_cases hj : h = j
  · subst hj
    by_cases hl : h < m.keys.length
    · simp [hl]
    · simp [hl]
  · simp [hj, Ne.symm hj]

theorem Sim.update {s : Stub V} {m : Mpi V} (hs : Sim s m) (c h k : Nat) (f g : Nat → Option V) (hf : s.attrs[c]? = some f) (hg : m.attrs[c]? = some g) (hv : m.valid h = true)
    (hk : s.ids[h]? = some k) (v : Option V) : Sim { s with attrs := s.attrs.set c (put f k v) } { m with attrs := m.attrs.set c (put g h v) } where
  count := hs.count
  comms := by simp [hs.comms]
  mem := hs.mem
  inj := hs.inj
  same := by
    intro c' f' g' hf' hg' h' k' hv' hk'
    simp only [List.getElem?_set] at hf' hg'
    by_cases hc : c = c'
    · subst hc
      have h1 : c < s.attrs.length := by
        by_contra hn
        rw [List.getElem?_eq_none (by omega)] at hf; cases hf
      have h2 : c < m.attrs.length := by rw [← hs.comms]; exact h1
      simp only [if_true, h1, h2, Option.some.injEq] at hf' hg'
      subst hf' hg'
      simp only [put]
      have hi : k' = k ↔ h' = h := by
        constructor
        · rintro rfl; exact hs.inj _ _ _ hv' hv hk' hk
        · rintro rfl; rw [hk] at hk'; injection hk' with e; exact e.symm
      by_cases he : h' = h
      · rw [if_pos (hi.2 he), if_pos he]
      · rw [if_neg (fun e => he (hi.1 e)), if_neg he]
        exact hs.same c f g hf hg h' k' hv' hk'
    · rw [if_neg hc] at hf' hg'
      exact hs.same c' f' g' hf' hg' h' k' hv' hk'
  clean := by
    intro f' hf' j hj
    rcases List.mem_or_eq_of_mem_set hf' with h1 | h1
    · exact hs.clean f' h1 j hj
    · subst h1
      simp only [put]
      rw [if_neg, hs.clean f (List.mem_of_getElem? hf) j hj]
      rintro rfl
      exact hj ((hs.mem _).2 ⟨h, hv, hk⟩)
  old := by
    intro g' hg' j hj
    rcases List.mem_or_eq_of_mem_set hg' with h1 | h1
    · exact hs.old g' h1 j hj
    · subst h1
      simp only [put]
      rw [if_neg, hs.old g (List.mem_of_getElem? hg) j hj]
      rintro rfl
      change m.valid j = false at hj
      rw [hv] at hj
      cases hj

theorem Sim.create {s : Stub V} {m : Mpi V} (hs : Sim s m) (copy : Bool) :
    Sim { s with ids := s.ids ++ [fresh s.keyvals], keyvals := fresh s.keyvals :: s.keyvals } { m with keys := m.keys ++ [(copy, true)] } := by
  have hlt : ∀ h, m.valid h = true → h < s.ids.length := by
    intro h hv
    obtain ⟨k, hk, -⟩ := hs.id hv
    by_contra hc
    rw [List.getElem?_eq_none (by omega)] at hk
    cases hk
  have hid : ∀ h k, (m.valid h = true ∨ h = m.keys.length) → (s.ids ++ [fresh s.keyvals])[h]? = some k → (m.valid h = true ∧ s.ids[h]? = some k) ∨ (h = m.keys.length ∧ k = fresh s.keyvals) := by
    intro h k hv hk
    rcases hv with hv | hv
    · rw [List.getElem?_append_left (hlt h hv)] at hk
      exact .inl ⟨hv, hk⟩
    · subst hv
      rw [← hs.count, List.getElem?_append_right (Nat.le_refl _), Nat.sub_self] at hk
      injection hk with hk
      exact .inr ⟨rfl, hk.symm⟩
  have hnew : ∀ h, m.valid h = true → s.ids[h]? ≠ some (fresh s.keyvals) := fun h hv hk => fresh_not_mem s.keyvals ((hs.mem _).2 ⟨h, hv, hk⟩)
  refine ⟨by simp [hs.count], hs.comms, fun k => ?_, fun h h' k hv hv' hk hk' => ?_, fun c f g hf hg h k hv hk => ?_, fun f hf k hk => ?_, fun g hg h hv => ?_⟩
  · rw [List.mem_cons]
    constructor
    · rintro (rfl | hk)
      · refine ⟨m.keys.length, (valid_append m copy _).2 (.inr rfl), ?_⟩
        simp only
        rw [← hs.count, List.getElem?_append_right (Nat.le_refl _), Nat.sub_self]
        rfl
      · obtain ⟨h, hv, hk⟩ := (hs.mem k).1 hk
        refine ⟨h, (valid_append m copy _).2 (.inl hv), ?_⟩
        simp only
        rw [List.getElem?_append_left (hlt h hv)]
        exact hk
    · rintro ⟨h, hv, hk⟩
      rcases hid h k ((valid_append m copy _).1 hv) hk with ⟨h1, h2⟩ | ⟨-, h2⟩
      · exact .inr ((hs.mem k).2 ⟨h, h1, h2⟩)
      · exact .inl h2
  · rcases hid h k ((valid_append m copy _).1 hv) hk with ⟨h1, h2⟩ | ⟨h1, h2⟩ <;> rcases hid h' k ((valid_append m copy _).1 hv') hk' with ⟨h3, h4⟩ | ⟨h3, h4⟩
    · exact hs.inj _ _ _ h1 h3 h2 h4
    · exact absurd (h4 ▸ h2) (hnew h h1)
    · exact absurd (h2 ▸ h4) (hnew h' h3)
    · rw [h1, h3]
  · rcases hid h k ((valid_append m copy _).1 hv) hk with ⟨h1, h2⟩ | ⟨h1, h2⟩
    · exact hs.same c f g hf hg h k h1 h2
    · subst h1 h2
      rw [hs.clean f (List.mem_of_getElem? hf) _ (fresh_not_mem _)]
      refine (hs.old g (List.mem_of_getElem? hg) _ ?_).symm
      rw [Mpi.valid, List.getElem?_eq_none (Nat.le_refl _)]
  · exact hs.clean f hf k fun h => hk (List.mem_cons_of_mem _ h)
  · refine hs.old g hg h ?_
    by_contra hc
    rw [(valid_append m copy h).2 (.inl (by simpa using hc))] at hv
    cases hv

theorem Sim.free {s : Stub V} {m : Mpi V} (hs : Sim s m) (h k : Nat) (c : Bool) (hv : m.valid h = true) (hk : s.ids[h]? = some k) (hn : ∀ f ∈ m.attrs, f h = none) :
    Sim { s with keyvals := s.keyvals.filter (· ≠ k) } { m with keys := m.keys.set h (c, false) } := by
  refine ⟨by simp [hs.count], hs.comms, fun j => ?_, fun i i' j hi hi' => hs.inj i i' j ((valid_free m h i c).1 hi).1 ((valid_free m h i' c).1 hi').1,
    fun c' f g hf hg i j hi => hs.same c' f g hf hg i j ((valid_free m h i c).1 hi).1, fun f hf j hj => ?_, fun g hg i hi => ?_⟩
  · simp only [List.mem_filter, decide_eq_true_eq, hs.mem j]
    constructor
    · rintro ⟨⟨i, hi, hj⟩, hne⟩
      refine ⟨i, (valid_free m h i c).2 ⟨hi, ?_⟩, hj⟩
      rintro rfl
      rw [hk] at hj
      injection hj with e
      exact hne e.symm
    · rintro ⟨i, hi, hj⟩
      obtain ⟨h1, h2⟩ := (valid_free m h i c).1 hi
      refine ⟨⟨i, h1, hj⟩, ?_⟩
      rintro rfl
      exact h2 (hs.inj _ _ _ h1 hv hj hk)
  · by_cases hjk : j = k
    · subst hjk
      obtain ⟨a, ha⟩ := List.getElem?_of_mem hf
      rcases hs.comm a with ⟨h1, -⟩ | ⟨f', g, h1, h2⟩
      · rw [h1] at ha; cases ha
      · rw [hs.same a f g ha h2 h j hv hk]
        exact hn g (List.mem_of_getElem? h2)
    · refine hs.clean f hf j fun hm => hj (List.mem_filter.2 ⟨hm, by simpa using hjk⟩)
  · by_cases hih : i = h
    · subst hih; exact hn g hg
    · refine hs.old g hg i ?_
      by_contra hc
      rw [(valid_free m h i c).2 ⟨by simpa using hc, hih⟩] at hi
      cases hi

theorem Sim.dup {s : Stub V} {m : Mpi V} (hs : Sim s m) (g : Nat → Option V) (hg : ∀ h, m.copied h = true → g h = none) :
    Sim { s with attrs := s.attrs ++ [fun _ => none] } { m with attrs := m.attrs ++ [fun h => if m.copied h then g h else none] } := by
  have hz : (fun h => if m.copied h then g h else none) = fun _ => none := by
    funext h
    by_cases hc : m.copied h = true
    · rw [if_pos hc, hg h hc]
    · rw [if_neg hc]
  rw [hz]
  refine ⟨hs.count, by simp [hs.comms], hs.mem, hs.inj, fun c f g hf hg h k hv hk => ?_, fun f hf k hk => ?_, fun f hf h hv => ?_⟩
  · by_cases hc : c < s.attrs.length
    · simp only [List.getElem?_append_left hc] at hf
      simp only [List.getElem?_append_left (show c < m.attrs.length by rw [← hs.comms]; exact hc)] at hg
      exact hs.same c f g hf hg h k hv hk
    · have h1 : f ∈ [fun _ : Nat => (none : Option V)] := by
        simp only [List.getElem?_append_right (show s.attrs.length ≤ c by omega)] at hf
        exact List.mem_of_getElem? hf
      have h2 : g ∈ [fun _ : Nat => (none : Option V)] := by
        simp only [List.getElem?_append_right (show m.attrs.length ≤ c by rw [← hs.comms]; omega)] at hg
        exact List.mem_of_getElem? hg
      rw [List.mem_singleton.1 h1, List.mem_singleton.1 h2]
  · rcases List.mem_append.1 hf with hf | hf
    · exact hs.clean f hf k hk
    · rw [List.mem_singleton.1 hf]
  · rcases List.mem_append.1 hf with hf | hf
    · exact hs.old f hf h hv
    · rw [List.mem_singleton.1 hf]

theorem Sim.step {s : Stub V} {m : Mpi V} (hs : Sim s m) (c : Cmd V) (cs : List (Cmd V)) (hc : m.Careful (c :: cs)) : (s.step c).2 = (m.step c).2 ∧ Sim (s.step c).1 (m.step c).1 := by
  have hc := hc.1
  cases c with
  | create copy => exact ⟨rfl, hs.create copy⟩
  | free h =>
    obtain ⟨hv, hn⟩ := hc
    obtain ⟨k, hk, hm⟩ := hs.id hv
    simp only [Stub.step, Mpi.step, hk, hm, hv, if_true]
    exact ⟨trivial, hs.free h k _ hv hk hn⟩
  | set c h v =>
    have hv : m.valid h = true := hc
    obtain ⟨k, hk, hm⟩ := hs.id hv
    rcases hs.comm c with ⟨h1, h2⟩ | ⟨f, g, h1, h2⟩
    · simp only [Stub.step, Mpi.step, hk, h1, h2]
      exact ⟨trivial, hs⟩
    · simp only [Stub.step, Mpi.step, hk, h1, h2, hm, hv, if_true]
      exact ⟨trivial, hs.update c h k f g h1 h2 hv hk _⟩
  | get c h =>
    have hv : m.valid h = true := hc
    obtain ⟨k, hk, hm⟩ := hs.id hv
    rcases hs.comm c with ⟨h1, h2⟩ | ⟨f, g, h1, h2⟩
    · simp only [Stub.step, Mpi.step, hk, h1, h2]
      exact ⟨trivial, hs⟩
    · simp only [Stub.step, Mpi.step, hk, h1, h2, hm, hv, if_true]
      exact ⟨by rw [hs.same c f g h1 h2 h k hv hk], hs⟩
  | del c h =>
    have hv : m.valid h = true := hc
    obtain ⟨k, hk, hm⟩ := hs.id hv
    rcases hs.comm c with ⟨h1, h2⟩ | ⟨f, g, h1, h2⟩
    · simp only [Stub.step, Mpi.step, hk, h1, h2]
      exact ⟨trivial, hs⟩
    · have he := hs.same c f g h1 h2 h k hv hk
      simp only [Stub.step, Mpi.step, hk, h1, h2, hv, he, true_and]
      by_cases hn : g h = none
      · simp only [hn, if_true, ne_eq, not_true_eq_false, if_false]
        exact ⟨trivial, hs⟩
      · simp only [hn, if_false, ne_eq, not_false_eq_true, if_true]
        exact ⟨trivial, hs.update c h k f g h1 h2 hv hk _⟩
  | dup c =>
    rcases hs.comm c with ⟨h1, h2⟩ | ⟨f, g, h1, h2⟩
    · simp only [Stub.step, Mpi.step, h1, h2]
      exact ⟨trivial, hs⟩
    · simp only [Stub.step, Mpi.step, h1, h2]
      exact ⟨trivial, hs.dup g (hc g h2)⟩

/-! ### Property C102: attributes -/

/-- For all programs that use attributes with care: the stub returns what MPI returns. -/
theorem C102_attributes_partial (p : List (Cmd V)) (hp : (Mpi.initial (V := V)).Careful p) : (Stub.initial (V := V)).run p = Mpi.initial.run p := by
  have key : ∀ (p : List (Cmd V)) (s : Stub V) (m : Mpi V), Sim s m → m.Careful p → s.run p = m.run p := by
    intro p
    induction p with
    | nil => intros; rfl
    | cons c cs ih =>
      intro s m hs hc
      obtain ⟨h1, h2⟩ := hs.step c cs hc
      rw [Stub.run, Mpi.run, h1, ih _ _ h2 hc.2]
  exact key p _ _ Sim.initial hp

/-- Two keys, one of which is freed and its number used again: nothing is mixed up. -/
def sample : List (Cmd Nat) := [.create false, .create false, .set 0 0 10, .set 0 1 11, .dup 0, .get 1 0, .del 0 1, .free 1, .create true, .get 0 2, .set 0 2 12, .get 0 0, .get 0 2]

example : (Mpi.initial (V := Nat)).Careful sample ∧ (Stub.initial.run sample).drop 9 = [.value none, .done, .value (some 10), .value (some 12)] := by
  refine ⟨?_, by decide⟩
  simp [sample, Mpi.Careful, Mpi.step, Mpi.initial, Mpi.valid, Mpi.copied, put]
  intro h
  rcases h with _ | _ | h <;> simp

/-- A key that is created after another one has been freed can be given the same number, and with it the attribute that has been set with the other key. -/
theorem C102_keyval_fails : ∃ p : List (Cmd Nat), Stub.initial.run p = [.done, .done, .done, .done, .value (some 7)] ∧ Mpi.initial.run p = [.done, .done, .done, .done, .value none] :=
  ⟨[.create false, .set 0 0 7, .free 0, .create false, .get 0 1], by decide, by decide⟩

/-- A key that has been freed is valid again if another one is created. -/
theorem C102_freed_fails : ∃ p : List (Cmd Nat), Stub.initial.run p = [.done, .done, .done, .done, .value (some 7)] ∧ Mpi.initial.run p = [.done, .done, .done, .error, .error] :=
  ⟨[.create false, .free 0, .create false, .set 0 0 7, .get 0 0], by decide, by decide⟩

/-- The attributes are not copied with the communicator, even if the key has been created with copy_fn=True. -/
theorem C102_dup_fails : ∃ p : List (Cmd Nat), Stub.initial.run p = [.done, .done, .done, .value none] ∧ Mpi.initial.run p = [.done, .done, .done, .value (some 7)] :=
  ⟨[.create true, .set 0 0 7, .dup 0, .get 1 0], by decide, by decide⟩

/-! ### Model: communications -/

/-- An array, by the values at the indices. -/
structure Arr (V : Type) where
  shape : List Nat
  get : List Nat → V

/-- What can be given as a buffer: an array, or a list or tuple of an array and its type (and counts, which the stub does not use). -/
inductive Buf (V : Type) where
  | array (a : Arr V)
  | spec (a : Arr V)

def Buf.arr : Buf V → Arr V
  | .array a => a
  | .spec a => a

/-- The dimensions of length one on the left that NumPy removes from what is assigned. -/
def strip (n : Nat) : List Nat → List Nat
  | 1 :: s => if n < s.length + 1 then strip n s else 1 :: s
  | s => s

/-- The dimensions are broadcast: both shapes are aligned on the right. -/
def fits (s t : List Nat) : Bool := decide (s.length ≤ t.length) && (s.zip (t.drop (t.length - s.length))).all fun p => p.1 == p.2 || p.1 == 1

/-- The assignment `dst[...] = src` of NumPy; `none` is ValueError. -/
def assign (dst src : Arr V) : Option (Arr V) :=
  let s := strip dst.shape.length src.shape
  if fits s dst.shape then
    some ⟨dst.shape, fun k => src.get (List.replicate (src.shape.length - s.length) 0 ++ (s.zip (k.drop (k.length - s.length))).map fun p => if p.1 = 1 then 0 else p.2)⟩
  else none

/-- `o[0]`, to which values can be assigned: `none` is IndexError if there are no dimensions or no elements, and TypeError for an element of a vector. -/
def first (a : Arr V) : Option (Arr V) :=
  match a.shape with
  | [] => none
  | [_] => none
  | 0 :: _ => none
  | _ :: s => some ⟨s, fun k => a.get (0 :: k)⟩

/-- The content of the output after `o[0] = ...`. -/
def putFirst (a b : Arr V) : Arr V := ⟨a.shape, fun k => match k with | 0 :: k => b.get k | k => a.get k⟩

/-- `Allreduce(i, o)` and `Allgatherv(i, o)`: src/pyoperators/utils/fake_MPI.py:130-142, the content of the output; `i` is `none` for IN_PLACE, and the result is `none` for an exception. -/
def transfer (i : Option (Buf V)) (o : Buf V) : Option (Arr V) :=
  match i, o with
  | none, o => some o.arr
  | some i, .spec a => assign a i.arr
  | some i, .array a => (first a).bind fun f => (assign f i.arr).map (putFirst a)

/-! ### Specification: the communications of MPI -/

/-- The reduction of the buffers of all the processes, which have the same number of elements. -/
def mpiReduce (op : V → V → V) : List (List V) → List V
  | [] => []
  | [x] => x
  | x :: xs => List.zipWith op x (mpiReduce op xs)

/-- The values in the order of the memory of contiguous arrays. -/
def enum : List Nat → List (List Nat)
  | [] => [[]]
  | d :: s => (List.range d).flatMap fun i => (enum s).map (i :: ·)

def Arr.flat (a : Arr V) : List V := (enum a.shape).map a.get

/-! ### Property C102: communications -/

theorem mem_enum_length (s k : List Nat) (h : k ∈ enum s) : k.length = s.length := by
  induction s generalizing k with
  | nil => rw [enum, List.mem_singleton] at h; rw [h]
  | cons d s ih =>
    simp only [enum, List.mem_flatMap, List.mem_map] at h
    obtain ⟨i, -, k', hk, rfl⟩ := h
    simp [ih k' hk]

theorem strip_self (s : List Nat) : strip s.length s = s := by
  match s with
  | [] => rfl
  | 0 :: s => rfl
  | 1 :: s => simp [strip]
  | (n + 2) :: s => rfl

theorem fits_self (s : List Nat) : fits s s = true := by
  simp only [fits, Nat.le_refl, decide_true, Nat.sub_self, List.drop_zero, Bool.true_and, List.all_eq_true]
  intro p hp
  have : p.1 = p.2 := by
    induction s with
    | nil => cases hp
    | cons a s ih =>
      rw [List.zip_cons_cons] at hp
      rcases List.mem_cons.1 hp with rfl | hp
      · rfl
      · exact ih hp
  simp [this]

theorem enum_lt (s k : List Nat) (h : k ∈ enum s) : (s.zip k).map (fun p => if p.1 = 1 then 0 else p.2) = k := by
  induction s generalizing k with
  | nil => rw [enum, List.mem_singleton] at h; rw [h]; rfl
  | cons d s ih =>
    simp only [enum, List.mem_flatMap, List.mem_map, List.mem_range] at h
    obtain ⟨i, hi, k', hk, rfl⟩ := h
    rw [List.zip_cons_cons, List.map_cons, ih k' hk]
    congr 1
    simp only
    split
    · omega
    · rfl

/-- For all arrays and operations: a reduction or a gathering into a buffer that is given with its type, of the shape of the input, copies the values of the input, as MPI does with one process; and a communication in place leaves the buffer, which contains the input, as it is. -/
theorem C102_transfer_partial (op : V → V → V) (i : Buf V) (o : Arr V) (hs : i.arr.shape = o.shape) :
    (∃ r, transfer (some i) (.spec o) = some r ∧ r.shape = o.shape ∧ r.flat = mpiReduce op [i.arr.flat] ∧ r.flat = [i.arr.flat].flatten) ∧
    ∀ b : Buf V, ∃ r, transfer none b = some r ∧ r.flat = mpiReduce op [b.arr.flat] := by
  constructor
  · have hst : strip o.shape.length i.arr.shape = o.shape := by rw [hs, strip_self]
    have ha : assign o i.arr = some ⟨o.shape, fun k => i.arr.get ((o.shape.zip (k.drop (k.length - o.shape.length))).map fun p => if p.1 = 1 then 0 else p.2)⟩ := by
      simp only [assign, hst, fits_self, if_true]
      rw [hs, Nat.sub_self]
      rfl
    refine ⟨_, ha, rfl, ?_, ?_⟩
    · simp only [mpiReduce, Arr.flat, hs]
      refine List.map_congr_left fun k hk => ?_
      rw [mem_enum_length _ _ hk, Nat.sub_self, List.drop_zero, enum_lt _ _ hk]
    · simp only [List.flatten_cons, List.flatten_nil, List.append_nil, Arr.flat, hs]
      refine List.map_congr_left fun k hk => ?_
      rw [mem_enum_length _ _ hk, Nat.sub_self, List.drop_zero, enum_lt _ _ hk]
  · exact fun b => ⟨_, rfl, rfl⟩

example : (transfer (some (.array ⟨[2, 2], fun k => k.getD 0 0 * 2 + k.getD 1 0⟩)) (.spec ⟨[2, 2], fun _ => 9⟩)).map Arr.flat = some [0, 1, 2, 3] := by decide

/-- An output that is given as an array, without its type, which MPI accepts, is refused, unless its first dimension has length one and it has two dimensions or more. -/
theorem C102_array_fails (i : Buf V) (o : Arr V) (hs : i.arr.shape = o.shape) (h1 : o.shape.length ≤ 1 ∨ o.shape.head? ≠ some 1) : transfer (some i) (.array o) = none := by
  obtain ⟨s, g⟩ := o
  simp only at hs h1
  match s, hs, h1 with
  | [], _, _ => rfl
  | [_], _, _ => rfl
  | 0 :: b :: s, _, _ => rfl
  | 1 :: b :: s, _, h1 => simp at h1
  | (n + 2) :: b :: s, hs, _ =>
    have hst : strip (s.length + 1) ((n + 2) :: b :: s) = (n + 2) :: b :: s := rfl
    have hf : fits ((n + 2) :: b :: s) (b :: s) = false := by
      simp only [fits, List.length_cons, Bool.and_eq_false_iff, decide_eq_false_iff_not]
      exact Or.inl (by omega)
    simp only [transfer, first, Option.bind_some, assign, hs, List.length_cons, hst, hf]
    rfl

/-- The exception: an output given as an array of two dimensions or more, the first of which has length one, receives the values of an input of this shape. -/
theorem C102_row_partial (i : Buf V) (o : Arr V) (hs : i.arr.shape = o.shape) (h1 : 1 < o.shape.length) (h2 : o.shape.head? = some 1) :
    ∃ r, transfer (some i) (.array o) = some r ∧ r.shape = o.shape ∧ r.flat = i.arr.flat := by
  obtain ⟨s, g⟩ := o
  simp only at hs h1 h2
  match s, hs, h1, h2 with
  | 1 :: b :: s, hs, _, _ =>
    have hst : strip (s.length + 1) (1 :: b :: s) = b :: s := by
      rw [strip, if_pos (by simp)]
      exact strip_self (b :: s)
    have ha : assign ⟨b :: s, fun k => g (0 :: k)⟩ i.arr = some ⟨b :: s, fun k => i.arr.get (0 :: ((b :: s).zip (k.drop (k.length - (b :: s).length))).map fun p => if p.1 = 1 then 0 else p.2)⟩ := by
      simp only [assign, List.length_cons, hs, hst, fits_self, if_true]
      have : s.length + 1 + 1 - (s.length + 1) = 1 := by omega
      rw [this]
      rfl
    refine ⟨putFirst ⟨1 :: b :: s, g⟩ _, by simp only [transfer, first, Option.bind_some]; rw [ha]; rfl, rfl, ?_⟩
    simp only [Arr.flat, hs, putFirst]
    refine List.map_congr_left fun k hk => ?_
    rw [enum, List.range_one, List.flatMap_singleton, List.mem_map] at hk
    obtain ⟨k, hk, rfl⟩ := hk
    simp only
    rw [mem_enum_length _ _ hk, Nat.sub_self, List.drop_zero, enum_lt _ _ hk]

example : (transfer (some (.array ⟨[1, 3], fun k => k.getD 1 0⟩)) (.array ⟨[1, 3], fun _ => 9⟩)).map Arr.flat = some [0, 1, 2] := by decide

/-- The number of elements has to be the same in MPI, but not the shapes: the stub refuses a buffer of another shape with the same number of elements, and it accepts and repeats a buffer with fewer elements. -/
theorem C102_shape_fails : (transfer (some (.array ⟨[2, 3], fun k => k.getD 1 0⟩)) (.spec ⟨[6], fun _ => 9⟩)).map Arr.flat = none ∧
    (transfer (some (.array ⟨[1], fun _ => 5⟩)) (.spec ⟨[3], fun _ => 9⟩)).map Arr.flat = some [5, 5, 5] := by decide

end Verif.Utils.Stub
