import Mathlib.Logic.Function.Basic

/-
Model of the context managers that change a setting: src/pyoperators/utils/misc.py:850-873 (`setting` and `settingerr`) and 752-786
(`pool_threading`).
-/

namespace Verif.Setting

/-! ### Model -/

/-- An object: its own attributes and those of its class. -/
structure Obj (V : Type) where
  own : String → Option V
  cls : String → Option V

variable {V : Type}

/-- `getattr`, or `none` if `hasattr` is false.  Simplification: the attributes are not properties. -/
def Obj.get (o : Obj V) (a : String) : Option V := (o.own a).or (o.cls a)

/-- `setattr` -/
def Obj.set (o : Obj V) (a : String) (v : V) : Obj V := { o with own := Function.update o.own a (some v) }

/-- `delattr`, `none` is the exception AttributeError. -/
def Obj.del (o : Obj V) (a : String) : Option (Obj V) :=
  (o.own a).map fun _ => { o with own := Function.update o.own a none }

/-- The end of a block: whether an exception has been raised, and the state. -/
inductive Ended (σ : Type) where
  | normally (s : σ)
  | raised (s : σ)

/-- The final state. -/
def Ended.state {σ : Type} : Ended σ → σ
  | normally s | raised s => s

/-- `with setting(obj, attr, value): body`: src/pyoperators/utils/misc.py:850-863.  The generator is not resumed after the `yield` if the
block raises an exception. -/
def setting (o : Obj V) (a : String) (v : V) (body : Obj V → Ended (Obj V)) : Ended (Obj V) :=
  match body (o.set a v) with
  | .raised o' => .raised o'
  | .normally o' =>
    match o.get a with
    | none =>
      match o'.del a with
      | none => .raised o'
      | some o'' => .normally o''
    | some old => .normally (o'.set a old)

/-- The settings for the floating point errors, `np.seterr`: one mode by kind of error. -/
abbrev Modes (M : Type) := String → M

/-- `np.seterr(**keywords)`, the keywords that are given. -/
def seterr {M : Type} (m : Modes M) (keywords : String → Option M) : Modes M := fun k => (keywords k).getD (m k)

/-- `with settingerr(**keywords): body`: src/pyoperators/utils/misc.py:866-873. -/
def settingerr {M : Type} (m : Modes M) (keywords : String → Option M) (body : Modes M → Ended (Modes M)) : Ended (Modes M) :=
  match body (seterr m keywords) with
  | .raised m' => .raised (seterr m' fun k => some (m k))
  | .normally m' => .normally (seterr m' fun k => some (m k))

/-- The number of threads of the library MKL, if it can be imported, and the environment variables. -/
structure Threads where
  mkl : Option Nat
  env : String → Option String

/-- `with pool_threading() as pool: body`: src/pyoperators/utils/misc.py:752-786.  If MKL cannot be imported, the variable `mkl` is not defined
and the exception UnboundLocalError is one of type NameError.  Simplification: the pool itself is not modelled. -/
def poolThreading (s : Threads) (body : Threads → Ended Threads) : Ended Threads :=
  let old := s.env "OMP_NUM_THREADS"
  match body ⟨s.mkl.map fun _ => 1, Function.update s.env "OMP_NUM_THREADS" (some "1")⟩ with
  | .raised s' => .raised s'
  | .normally s' =>
    let s'' : Threads := { s' with mkl := match s.mkl with | some n => some n | none => s'.mkl }
    match old with
    | some v => .normally { s'' with env := Function.update s''.env "OMP_NUM_THREADS" (some v) }
    | none =>
      match s''.env "OMP_NUM_THREADS" with
      | none => .raised s''
      | some _ => .normally { s'' with env := Function.update s''.env "OMP_NUM_THREADS" none }

/-! ### Proofs -/

theorem get_set (o : Obj V) (a : String) (v : V) : (o.set a v).get a = some v := by simp [Obj.get, Obj.set]

theorem get_set_ne (o : Obj V) {a b : String} (h : b ≠ a) (v : V) : (o.set a v).get b = o.get b := by simp [Obj.get, Obj.set, h]

/-- C85 (partial): inside of the block, the attribute has the value and the others are not changed.  If the block raises no exception, deletes
no attribute and does not change the class, then after the block the attribute is as before, and the other attributes are as in the block. -/
theorem C85_setting_partial (o : Obj V) (a : String) (v : V) (body : Obj V → Ended (Obj V)) :
    ((o.set a v).get a = some v ∧ ∀ b ≠ a, (o.set a v).get b = o.get b) ∧
    ∀ o', body (o.set a v) = .normally o' → o'.cls = o.cls → (o'.own a).isSome → ∃ o'', setting o a v body = .normally o'' ∧
      o''.get a = o.get a ∧ ∀ b ≠ a, o''.get b = o'.get b := by
  refine ⟨⟨get_set o a v, fun b hb => get_set_ne o hb v⟩, fun o' hb hc hd => ?_⟩
  simp only [setting, hb]
  cases hg : o.get a with
  | some old => exact ⟨_, rfl, get_set o' a old, fun b hb => get_set_ne o' hb old⟩
  | none =>
    obtain ⟨w, hw⟩ := Option.isSome_iff_exists.1 hd
    simp only [Obj.del, hw, Option.map_some]
    refine ⟨_, rfl, ?_, fun b hb => by simp [Obj.get, hb]⟩
    simp only [Obj.get, Option.or_eq_none_iff] at hg
    simp [Obj.get, hc, hg.2]

/-- C85 (partial): nested blocks for the same attribute, or others: if the inner part raises no exception, each of the attributes is restored. -/
theorem C85_nested_partial (o : Obj V) {a b : String} (v w : V) (body : Obj V → Ended (Obj V))
    {o' : Obj V} (hb : body ((o.set a v).set b w) = .normally o') (hc : o'.cls = o.cls) (ha : (o'.own a).isSome) (hb' : (o'.own b).isSome) :
    ∃ o'', setting o a v (fun s => setting s b w body) = .normally o'' ∧ o''.get a = o.get a ∧ o''.get b = o.get b := by
  obtain ⟨o1, h1, h2, h3⟩ := (C85_setting_partial (o.set a v) b w body).2 o' hb hc hb'
  have hcls : o1.cls = o'.cls := by
    simp only [setting, hb] at h1
    split at h1
    · split at h1
      · cases h1
      · next o2 hd => cases h1; simp only [Obj.del, Option.map_eq_some_iff] at hd; obtain ⟨_, _, rfl⟩ := hd; rfl
    · cases h1; rfl
  have hown : (o1.own a).isSome := by
    simp only [setting, hb] at h1
    split at h1
    · next hg =>
      have hba : b ≠ a := fun e => by rw [e, get_set] at hg; cases hg
      split at h1
      · cases h1
      · next o2 hd =>
        cases h1; simp only [Obj.del, Option.map_eq_some_iff] at hd; obtain ⟨_, _, rfl⟩ := hd
        simpa [Function.update, hba.symm] using ha
    · cases h1
      by_cases hba : a = b
      · simp [Obj.set, hba]
      · simpa [Obj.set, Function.update, hba] using ha
  obtain ⟨o2, g1, g2, g3⟩ := (C85_setting_partial o a v fun s => setting s b w body).2 o1 h1 (hcls.trans hc) hown
  refine ⟨o2, g1, g2, ?_⟩
  by_cases hba : b = a
  · rw [hba]; exact g2
  · rw [g3 b hba, h2, get_set_ne o hba]

/-- C85: the modes for the floating point errors are the given ones in the block, and they are restored in any case. -/
theorem C85_errors {M : Type} (m : Modes M) (keywords : String → Option M) (body : Modes M → Ended (Modes M)) :
    (∀ k v, keywords k = some v → seterr m keywords k = v) ∧ (∀ k, keywords k = none → seterr m keywords k = m k) ∧
    (settingerr m keywords body).state = m := by
  refine ⟨fun k v h => by simp [seterr, h], fun k h => by simp [seterr, h], ?_⟩
  simp only [settingerr]
  split <;> (funext k; simp [Ended.state, seterr])

/-- C85 (partial): the numbers of threads are restored if the block raises no exception and does not delete the environment variable. -/
theorem C85_threads_partial (s : Threads) (body : Threads → Ended Threads) {s' : Threads}
    (hb : body ⟨s.mkl.map fun _ => 1, Function.update s.env "OMP_NUM_THREADS" (some "1")⟩ = .normally s')
    (hm : s.mkl = none → s'.mkl = none) (hd : (s'.env "OMP_NUM_THREADS").isSome) :
    ∃ t, poolThreading s body = .normally t ∧ t.mkl = s.mkl ∧ t.env "OMP_NUM_THREADS" = s.env "OMP_NUM_THREADS" ∧
      ∀ k, k ≠ "OMP_NUM_THREADS" → t.env k = s'.env k := by
  simp only [poolThreading, hb]
  have e : (match s.mkl with | some n => some n | none => s'.mkl) = s.mkl := by
    cases h : s.mkl with
    | some n => rfl
    | none => exact hm h
  cases hs : s.env "OMP_NUM_THREADS" with
  | some v => exact ⟨_, rfl, e, by simp, fun k hk => by simp [hk]⟩
  | none =>
    obtain ⟨w, hw⟩ := Option.isSome_iff_exists.1 hd
    simp only [hw]
    exact ⟨_, rfl, e, by simp, fun k hk => by simp [hk]⟩

/-- An object without own attributes, whose class has an attribute. -/
def plain : Obj Nat := ⟨fun _ => none, fun k => if k = "tol" then some 1 else none⟩

/-- C85: if the block raises an exception, the attribute is not restored. -/
theorem C85_exception_fails : ((setting plain "tol" 5 fun o => .raised o).state.get "tol") = some 5 ∧ plain.get "tol" = some 1 := by
  decide

/-- C85: the same holds for the number of threads. -/
theorem C85_threads_fails : (poolThreading ⟨some 8, fun _ => none⟩ fun s => .raised s).state.env "OMP_NUM_THREADS" = some "1" ∧
    (poolThreading ⟨some 8, fun _ => none⟩ fun s => .raised s).state.mkl = some 1 := by decide

/-- C85: an attribute of the class becomes an attribute of the object: after the block, the object does not follow the class any more. -/
theorem C85_class_fails :
    let change (o : Obj Nat) : Obj Nat := { o with cls := Function.update o.cls "tol" (some 2) }
    (change plain).get "tol" = some 2 ∧
      (change (setting plain "tol" 5 fun o => .normally o).state).get "tol" = some 1 := by decide

/-- C85: if the block deletes the attribute, that did not exist before, an exception is raised. -/
theorem C85_deleted_fails : ∃ o, setting plain "new" 5 (fun o => match o.del "new" with | some o => .normally o | none => .raised o) = .raised o :=
  ⟨_, rfl⟩

/-- A block that changes two attributes. -/
example : ∃ o', (fun o => Ended.normally ((o.set "tol" 7).set "name" 8)) (plain.set "tol" 5) = .normally o' ∧ o'.cls = plain.cls ∧
    (o'.own "tol").isSome ∧ (setting plain "tol" 5 fun o => .normally ((o.set "tol" 7).set "name" 8)).state.get "tol" = some 1 ∧
    (setting plain "tol" 5 fun o => .normally ((o.set "tol" 7).set "name" 8)).state.get "name" = some 8 :=
  ⟨_, rfl, rfl, by decide, by decide, by decide⟩

/-- Threads, with a body that changes another variable. -/
example : ∃ t, poolThreading ⟨none, fun k => if k = "OMP_NUM_THREADS" then some "4" else none⟩
    (fun s => .normally { s with env := Function.update s.env "HOME" (some "here") }) = .normally t ∧
    t.env "OMP_NUM_THREADS" = some "4" ∧ t.env "HOME" = some "here" := ⟨_, rfl, by decide, by decide⟩

/-- Modes of the errors. -/
example : (settingerr (fun _ => "warn") (fun k => if k = "divide" then some "ignore" else none) fun m => .raised m).state "divide" = "warn" ∧
    seterr (fun _ => "warn") (fun k => if k = "divide" then some "ignore" else none) "divide" = "ignore" := by decide

end Verif.Setting
