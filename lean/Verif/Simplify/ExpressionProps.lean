import Verif.Simplify.Expression

/-
C107: an expression of operators computes what it says, whichever rules simplify it, except for the opposites and the
differences of nonlinear operators.
-/

namespace Verif.Expression

open Verif.Simplify

set_option linter.unusedSectionVars false

variable {K : Type} {n : Nat} [CommRing K] [DecidableEq K]

/-! ### The constructors of the classes -/

theorem allEqual_iff (d : Vec K n) (c : K) : allEqual d c = true ↔ ∀ i, d i = c := by
  simp [allEqual]

theorem eval_newHomothety (c : K) (x : Vec K n) : (newHomothety c : Op K n).eval x = fun i => c * x i := by
  unfold newHomothety
  split
  · rename_i h
    subst h
    funext i
    simp [Op.eval]
  split
  · rename_i h
    subst h
    funext i
    simp [Op.eval]
  · simp [Op.eval]

theorem eval_newDiagonal (d x : Vec K n) : (newDiagonal d).eval x = fun i => d i * x i := by
  unfold newDiagonal
  split
  · rename_i h
    rw [allEqual_iff] at h
    funext i
    simp [Op.eval, h]
  split
  · rename_i h
    rw [allEqual_iff] at h
    funext i
    simp [Op.eval, h]
  split
  · simp [Op.eval]
  split
  · rename_i c _ h
    rw [allEqual_iff] at h
    rw [eval_newHomothety]
    funext i
    simp [h]
  · simp [Op.eval]

theorem eval_newConstant (b x : Vec K n) : (newConstant b).eval x = b := by
  unfold newConstant
  split
  · rename_i h
    rw [allEqual_iff] at h
    funext i
    simp [Op.eval, h]
  · simp [Op.eval]

theorem eval_newPower (k : Nat) (x : Vec K n) : (newPower k : Op K n).eval x = fun i => x i ^ k := by
  unfold newPower
  split
  · rename_i h
    subst h
    rw [eval_newConstant]
    funext i
    simp
  split
  · rename_i h
    subst h
    simp [Op.eval]
  · simp [Op.eval]

theorem eval_diag (o : Op K n) (d : Vec K n) (h : o.diag? = some d) (x : Vec K n) :
    o.eval x = fun i => d i * x i := by
  cases o <;> simp only [Op.diag?, reduceCtorEq, Option.some.injEq] at h <;> subst h <;> simp [Op.eval]

theorem eval_const (o : Op K n) (b : Vec K n) (h : o.const? = some b) (x : Vec K n) : o.eval x = b := by
  cases o <;> simp only [Op.const?, reduceCtorEq, Option.some.injEq] at h <;> subst h <;> simp [Op.eval]

/-! ### The composites -/

theorem evalSum_append (p q : List (Op K n)) (x : Vec K n) :
    evalSum (p ++ q) x = fun i => evalSum p x i + evalSum q x i := by
  induction p with
  | nil => funext i; simp [evalSum]
  | cons o p ih => funext i; simp [evalSum, ih, add_assoc]

theorem evalProduct_append (p q : List (Op K n)) (x : Vec K n) :
    evalProduct (p ++ q) x = fun i => evalProduct p x i * evalProduct q x i := by
  induction p with
  | nil => funext i; simp [evalProduct]
  | cons o p ih => funext i; simp [evalProduct, ih, mul_assoc]

theorem evalComposition_append (p q : List (Op K n)) (x : Vec K n) :
    evalComposition (p ++ q) x = evalComposition p (evalComposition q x) := by
  induction p with
  | nil => simp [evalComposition]
  | cons o p ih => simp [evalComposition, ih]

theorem eval_wrap_sum (ops : List (Op K n)) (x : Vec K n) : (wrap .sum ops).eval x = evalSum ops x := by
  unfold wrap
  split
  · funext i; simp [evalSum]
  · simp [Op.eval]

theorem eval_wrap_product (ops : List (Op K n)) (x : Vec K n) : (wrap .product ops).eval x = evalProduct ops x := by
  unfold wrap
  split
  · funext i; simp [evalProduct]
  · simp [Op.eval]

theorem eval_wrap_composition (ops : List (Op K n)) (x : Vec K n) :
    (wrap .composition ops).eval x = evalComposition ops x := by
  unfold wrap
  split
  · simp [evalComposition]
  · simp [Op.eval]

mutual

/-- A linear operator commutes with the scalars. -/
theorem eval_scale : ∀ (o : Op K n), o.isLinear = true → ∀ (c : K) (x : Vec K n),
    o.eval (fun i => c * x i) = fun i => c * o.eval x i
  | .matrix a, _, c, x => by
    simp only [Op.eval]
    exact Matrix.mulVec_smul a c x
  | .diagonal d, _, c, x => by
    funext i; simp only [Op.eval]; ring
  | .homothety d, _, c, x => by
    funext i; simp only [Op.eval]; ring
  | .identity, _, c, x => by simp [Op.eval]
  | .zero, _, c, x => by funext i; simp [Op.eval]
  | .function _, h, _, _ => by simp [Op.isLinear] at h
  | .power _, h, _, _ => by simp [Op.isLinear] at h
  | .constant _, h, _, _ => by simp [Op.isLinear] at h
  | .product _, h, _, _ => by simp [Op.isLinear] at h
  | .sum ops, h, c, x => by
    simp only [Op.eval]
    exact evalSum_scale ops (by simpa [Op.isLinear] using h) c x
  | .composition ops, h, c, x => by
    simp only [Op.eval]
    exact evalComposition_scale ops (by simpa [Op.isLinear] using h) c x

theorem evalSum_scale : ∀ (ops : List (Op K n)), allLinear ops = true → ∀ (c : K) (x : Vec K n),
    evalSum ops (fun i => c * x i) = fun i => c * evalSum ops x i
  | [], _, c, x => by funext i; simp [evalSum]
  | o :: ops, h, c, x => by
    simp only [allLinear, Bool.and_eq_true] at h
    funext i
    simp only [evalSum]
    rw [eval_scale o h.1, evalSum_scale ops h.2]
    ring

theorem evalComposition_scale : ∀ (ops : List (Op K n)), allLinear ops = true → ∀ (c : K) (x : Vec K n),
    evalComposition ops (fun i => c * x i) = fun i => c * evalComposition ops x i
  | [], _, c, x => by simp [evalComposition]
  | o :: ops, h, c, x => by
    simp only [allLinear, Bool.and_eq_true] at h
    simp only [evalComposition]
    rw [evalComposition_scale ops h.2, eval_scale o h.1]

end

theorem linear_isLinear (ctx : Context K n) (o : Op K n) (h : ctx.linear o = true) : o.isLinear = true := by
  cases o <;> simp_all [Context.linear, Op.isLinear]

theorem eval_zero_of_linear (o : Op K n) (h : o.isLinear = true) : o.eval 0 = 0 := by
  have := eval_scale o h 0 0
  funext i
  have h1 := congrFun this i
  have e : (fun i => (0 : K) * (0 : Vec K n) i) = 0 := by funext j; simp
  rw [e] at h1
  simpa using h1

/-! ### The rules -/

/-- The constructors compute the sum, the product and the composition of the operands. -/
structure Make.Sound (m : Make K n) : Prop where
  sum : ∀ ops x, (m.sum ops).eval x = evalSum ops x
  product : ∀ ops x, (m.product ops).eval x = evalProduct ops x
  composition : ∀ ops x, (m.composition ops).eval x = evalComposition ops x

/-- An operator as an element of the monoid of the functions. -/
def asEnd (o : Op K n) : Function.End (Vec K n) := o.eval

/-- An operator as an element of the additive monoid of the functions. -/
def asSum (o : Op K n) : Vec K n → Vec K n := o.eval

/-- An operator as an element of the multiplicative monoid of the functions. -/
def asProduct (o : Op K n) : Additive (Vec K n → Vec K n) := Additive.ofMul o.eval

theorem effect_asEnd (ops : List (Op K n)) (x : Vec K n) : (effect asEnd ops) x = evalComposition ops x := by
  induction ops with
  | nil => simp [effect, evalComposition]; rfl
  | cons o ops ih =>
    have e : effect asEnd (o :: ops) = asEnd o * effect asEnd ops := by simp [effect]
    rw [e]
    show asEnd o (effect asEnd ops x) = _
    rw [ih]
    simp [evalComposition, asEnd]

theorem total_asSum (ops : List (Op K n)) (x : Vec K n) : (total asSum ops) x = evalSum ops x := by
  induction ops with
  | nil => simp [total, evalSum]
  | cons o ops ih =>
    have e : total asSum (o :: ops) = asSum o + total asSum ops := by simp [total]
    rw [e]
    funext i
    show asSum o x i + total asSum ops x i = _
    rw [ih]
    simp [evalSum, asSum]

theorem total_asProduct (ops : List (Op K n)) (x : Vec K n) :
    (total asProduct ops).toMul x = evalProduct ops x := by
  induction ops with
  | nil => simp [total, evalProduct]
  | cons o ops ih =>
    have e : total asProduct (o :: ops) = asProduct o + total asProduct ops := by simp [total]
    rw [e]
    funext i
    show (asProduct o).toMul x i * (total asProduct ops).toMul x i = _
    rw [ih]
    simp [evalProduct, asProduct]

theorem leftRules_sound (ctx : Context K n) (hc : ctx.Sound) (m : Make K n) (hm : m.Sound) (a b : Op K n)
    (r : Simplify.Rule (Op K n)) (hr : r ∈ leftRules ctx m a) (out : Outcome (Op K n)) (h : r.act a b = some out) :
    ∃ o, out = .one o ∧ ∀ x, o.eval x = a.eval (b.eval x) := by
  unfold leftRules at hr
  rw [List.mem_append] at hr
  rcases hr with hr | hr
  · rw [List.mem_singleton] at hr
    subst hr
    dsimp only at h
    split at h
    · rename_i hi
      cases h
      exact ⟨a, rfl, fun x => (hc.idempotent a b hi x).symm⟩
    · cases h
  have fusion : ∀ (d e : Vec K n), a.diag? = some d → b.diag? = some e →
      ∀ x, (newDiagonal fun i => d i * e i).eval x = a.eval (b.eval x) := by
    intro d e hd he x
    rw [eval_newDiagonal, eval_diag a d hd, eval_diag b e he]
    funext i
    ring
  have diagonals : ∀ out, (match a.diag?, b.diag? with
        | some d, some e => if ctx.fuse a b then some (Outcome.one (newDiagonal fun i => d i * e i)) else none
        | _, _ => none) = some out → ∃ o, out = .one o ∧ ∀ x, o.eval x = a.eval (b.eval x) := by
    intro out h
    split at h
    · rename_i d e hd he
      split at h
      · cases h
        exact ⟨_, rfl, fusion d e hd he⟩
      · cases h
    · cases h
  cases a with
  | matrix a => simp at hr
  | function f => simp at hr
  | power k =>
    simp only [List.mem_singleton] at hr
    subst hr
    dsimp only at h
    split at h
    · cases h
      refine ⟨_, rfl, fun x => ?_⟩
      rw [eval_newPower]
      funext i
      simp only [Op.eval]
      rw [← pow_mul, mul_comm]
    · cases h
  | diagonal d =>
    simp only [List.mem_singleton] at hr
    subst hr
    exact diagonals out h
  | homothety c =>
    simp only [List.mem_singleton] at hr
    subst hr
    exact diagonals out h
  | identity =>
    simp only [List.mem_cons, List.not_mem_nil, or_false] at hr
    rcases hr with rfl | rfl
    · exact diagonals out h
    · cases h
      exact ⟨_, rfl, fun x => by simp [Op.eval]⟩
  | zero =>
    simp only [List.mem_singleton] at hr
    subst hr
    dsimp only at h
    split at h
    · cases h
    · cases h
      exact ⟨_, rfl, fun x => by simp [Op.eval]⟩
  | constant c =>
    simp only [List.mem_singleton] at hr
    subst hr
    dsimp only at h
    split at h
    · cases h
    · cases h
      exact ⟨_, rfl, fun x => by simp [Op.eval]⟩
  | sum ops => simp at hr
  | product ops => simp at hr
  | composition ops =>
    simp only [List.mem_cons, List.not_mem_nil, or_false] at hr
    rcases hr with rfl | rfl
    · dsimp only at h
      split at h
      · cases h
        exact ⟨_, rfl, fun x => by rw [hm.composition, evalComposition_append]; simp [Op.eval]⟩
      · cases h
    · cases h
      exact ⟨_, rfl, fun x => by rw [hm.composition, evalComposition_append]; simp [Op.eval, evalComposition]⟩

theorem rightRules_sound (ctx : Context K n) (hc : ctx.Sound) (m : Make K n) (hm : m.Sound) (a b : Op K n)
    (r : Simplify.Rule (Op K n)) (hr : r ∈ rightRules ctx m b) (out : Outcome (Op K n)) (h : r.act a b = some out) :
    ∃ o, out = .one o ∧ ∀ x, o.eval x = a.eval (b.eval x) := by
  unfold rightRules at hr
  rw [List.mem_append] at hr
  rcases hr with hr | hr
  · rw [List.mem_singleton] at hr
    subst hr
    dsimp only at h
    split at h
    · rename_i hi
      cases h
      exact ⟨.identity, rfl, fun x => by rw [hc.inverse a b hi x]; simp [Op.eval]⟩
    · cases h
  cases b with
  | matrix a => simp at hr
  | function f => simp at hr
  | power k => simp at hr
  | diagonal d => simp at hr
  | homothety c => simp at hr
  | sum ops => simp at hr
  | product ops => simp at hr
  | identity =>
    simp only [List.mem_singleton] at hr
    subst hr
    cases h
    exact ⟨_, rfl, fun x => by simp [Op.eval]⟩
  | constant c =>
    simp only [List.mem_singleton] at hr
    subst hr
    dsimp only at h
    split at h
    · cases h
    · split at h
      · cases h
        exact ⟨_, rfl, fun x => by rw [eval_newConstant]; simp [Op.eval]⟩
      · cases h
  | zero =>
    simp only [List.mem_singleton] at hr
    subst hr
    dsimp only at h
    split at h
    · cases h
    split at h
    · rename_i hl
      cases h
      exact ⟨_, rfl, fun x => by simp [Op.eval, eval_zero_of_linear a (linear_isLinear ctx a hl)]⟩
    · split at h
      · cases h
        exact ⟨_, rfl, fun x => by rw [eval_newConstant]; simp [Op.eval]⟩
      · cases h
  | composition ops =>
    simp only [List.mem_singleton] at hr
    subst hr
    cases h
    exact ⟨_, rfl, fun x => by rw [hm.composition]; simp [Op.eval, evalComposition]⟩

theorem compositionTable_sound (ctx : Context K n) (hc : ctx.Sound) (m : Make K n) (hm : m.Sound) :
    Simplify.Sound asEnd (compositionTable ctx m) where
  act := by
    intro a b r hr out h
    have key : ∃ o, out = .one o ∧ ∀ x, o.eval x = a.eval (b.eval x) := by
      rcases List.mem_append.1 hr with hr | hr
      · exact leftRules_sound ctx hc m hm a b r hr out h
      · exact rightRules_sound ctx hc m hm a b r hr out h
    obtain ⟨o, rfl, ho⟩ := key
    funext x
    exact ho x

theorem compositionTable_merging (ctx : Context K n) (hc : ctx.Sound) (m : Make K n) (hm : m.Sound) :
    Merging (compositionTable ctx m) := by
  intro a b r hr out h
  rcases List.mem_append.1 hr with hr | hr
  · obtain ⟨o, ho, _⟩ := leftRules_sound ctx hc m hm a b r hr out h
    exact ⟨o, ho⟩
  · obtain ⟨o, ho, _⟩ := rightRules_sound ctx hc m hm a b r hr out h
    exact ⟨o, ho⟩

/-- The scalars in the monoid of the functions. -/
def scalarHom : K →* Function.End (Vec K n) where
  toFun c := fun x i => c * x i
  map_one' := by funext x i; show 1 * x i = x i; rw [one_mul]
  map_mul' c d := by funext x i; show c * d * x i = c * (d * x i); ring

theorem scalarTable_sound (ctx : Context K n) : HSound (scalarHom : K →* Function.End (Vec K n)) asEnd (scalarTable ctx) where
  linear := by
    intro o ho c
    funext x
    exact (eval_scale o (linear_isLinear ctx o ho) c x).symm
  homothety := by
    intro o c h
    cases o <;> simp only [scalarTable, reduceCtorEq, Option.some.injEq] at h <;> subst h <;> funext x i
    · simp only [asEnd, Op.eval]; rfl
    · simp only [asEnd, Op.eval]; show x i = 1 * x i; rw [one_mul]
  toIdentity := by
    intro o
    funext x
    simp only [asEnd, scalarTable, Op.eval]
    rfl
  identityLinear := by
    intro o
    simp [scalarTable, Context.linear]
  mkHomothety := by
    intro c
    funext x
    exact eval_newHomothety c x
  left := by
    intro o r hr c new h
    cases o with
    | matrix a =>
      simp only [scalarTable] at hr
      split at hr
      · rw [List.mem_singleton] at hr
        subst hr
        cases h
        funext x
        show (Op.matrix (c • a)).eval x = (Op.matrix a).eval (fun i => c * x i)
        rw [eval_scale (Op.matrix a) rfl]
        simp only [Op.eval]
        rw [Matrix.smul_mulVec]
        rfl
      · cases hr
    | _ => simp [scalarTable] at hr
  right := by
    intro o r hr
    simp [scalarTable] at hr

theorem sumTable_sound (ctx : Context K n) (m : Make K n) (hm : m.Sound) : CSound asSum (sumTable ctx m) where
  act := by
    intro a rs hrs r hr b new h
    suffices hs : ∀ x, new.eval x = fun i => a.eval x i + b.eval x i by
      funext x i
      exact congrFun (hs x) i
    have diagonals : ∀ new, (match a.diag?, b.diag? with
        | some d, some e => if ctx.fuse a b then some (newDiagonal fun i => d i + e i) else none
        | _, _ => none) = some new → ∀ x, new.eval x = fun i => a.eval x i + b.eval x i := by
      intro new h x
      split at h
      · rename_i d e hd he
        split at h
        · cases h
          rw [eval_newDiagonal, eval_diag a d hd, eval_diag b e he]
          funext i
          ring
        · cases h
      · cases h
    have constants : ∀ new, (match a.const?, b.const? with
        | some d, some e => if ctx.fuse a b then some (newConstant fun i => d i + e i) else none
        | _, _ => none) = some new → ∀ x, new.eval x = fun i => a.eval x i + b.eval x i := by
      intro new h x
      split at h
      · rename_i d e hd he
        split at h
        · cases h
          rw [eval_newConstant, eval_const a d hd, eval_const b e he]
        · cases h
      · cases h
    cases a with
    | matrix _ => simp [sumTable, sumRules] at hrs
    | function _ => simp [sumTable, sumRules] at hrs
    | power _ => simp [sumTable, sumRules] at hrs
    | product _ => simp [sumTable, sumRules] at hrs
    | composition _ => simp [sumTable, sumRules] at hrs
    | diagonal _ =>
      simp only [sumTable, sumRules, Option.some.injEq] at hrs
      subst hrs
      rw [List.mem_singleton] at hr
      subst hr
      exact diagonals new h
    | homothety _ =>
      simp only [sumTable, sumRules, Option.some.injEq] at hrs
      subst hrs
      rw [List.mem_singleton] at hr
      subst hr
      exact diagonals new h
    | identity =>
      simp only [sumTable, sumRules, Option.some.injEq] at hrs
      subst hrs
      rw [List.mem_singleton] at hr
      subst hr
      exact diagonals new h
    | constant _ =>
      simp only [sumTable, sumRules, Option.some.injEq] at hrs
      subst hrs
      rw [List.mem_singleton] at hr
      subst hr
      exact constants new h
    | zero =>
      simp only [sumTable, sumRules, Option.some.injEq] at hrs
      subst hrs
      simp only [List.mem_cons, List.not_mem_nil, or_false] at hr
      rcases hr with rfl | rfl
      · exact constants new h
      · cases h
        intro x
        funext i
        simp [Op.eval]
    | sum ops =>
      simp only [sumTable, sumRules, Option.some.injEq] at hrs
      subst hrs
      simp only [List.mem_cons, List.not_mem_nil, or_false] at hr
      rcases hr with rfl | rfl
      · dsimp only at h
        split at h
        · cases h
          intro x
          rw [hm.sum, evalSum_append]
          simp [Op.eval]
        · cases h
      · cases h
        intro x
        rw [hm.sum, evalSum_append]
        simp [Op.eval, evalSum]
  zero := by
    intro o _ hz
    cases o with
    | homothety c =>
      simp only [sumTable, Op.isZeroHomothety, decide_eq_true_eq] at hz
      exact absurd hz c.2
    | _ => simp [sumTable, Op.isZeroHomothety] at hz

theorem productTable_sound (ctx : Context K n) (m : Make K n) (hm : m.Sound) :
    CSound asProduct (productTable ctx m) where
  act := by
    intro a rs hrs r hr b new h
    suffices hs : ∀ x, new.eval x = fun i => a.eval x i * b.eval x i by
      have e : new.eval = a.eval * b.eval := by
        funext x i
        exact congrFun (hs x) i
      show Additive.ofMul new.eval = Additive.ofMul a.eval + Additive.ofMul b.eval
      rw [e]
      rfl
    have squares : ∀ new, (match a.diag?, b.diag? with
        | some d, some e =>
          if ctx.fuse a b then some (m.product [newConstant fun i => d i * e i, newPower 2]) else none
        | _, _ => none) = some new → ∀ x, new.eval x = fun i => a.eval x i * b.eval x i := by
      intro new h x
      split at h
      · rename_i d e hd he
        split at h
        · cases h
          rw [hm.product, eval_diag a d hd, eval_diag b e he]
          funext i
          simp only [evalProduct, eval_newConstant, eval_newPower, Pi.one_apply]
          ring
        · cases h
      · cases h
    have constants : ∀ new, (match a.diag?, b.const? with
        | some d, some e => if ctx.fuse a b then some (newDiagonal fun i => d i * e i) else none
        | _, _ => none) = some new → ∀ x, new.eval x = fun i => a.eval x i * b.eval x i := by
      intro new h x
      split at h
      · rename_i d e hd he
        split at h
        · cases h
          rw [eval_newDiagonal, eval_diag a d hd, eval_const b e he]
          funext i
          ring
        · cases h
      · cases h
    cases a with
    | matrix _ => simp [productTable, productRules] at hrs
    | function _ => simp [productTable, productRules] at hrs
    | sum _ => simp [productTable, productRules] at hrs
    | composition _ => simp [productTable, productRules] at hrs
    | diagonal _ =>
      simp only [productTable, productRules, Option.some.injEq] at hrs
      subst hrs
      simp only [List.mem_cons, List.not_mem_nil, or_false] at hr
      rcases hr with rfl | rfl
      · exact squares new h
      · exact constants new h
    | homothety _ =>
      simp only [productTable, productRules, Option.some.injEq] at hrs
      subst hrs
      simp only [List.mem_cons, List.not_mem_nil, or_false] at hr
      rcases hr with rfl | rfl
      · exact squares new h
      · exact constants new h
    | identity =>
      simp only [productTable, productRules, Option.some.injEq] at hrs
      subst hrs
      simp only [List.mem_cons, List.not_mem_nil, or_false] at hr
      rcases hr with rfl | rfl
      · exact squares new h
      · exact constants new h
    | constant d =>
      simp only [productTable, productRules, Option.some.injEq] at hrs
      subst hrs
      have scaled : ∀ (b : Op K n) x, (m.composition [newDiagonal d, b]).eval x =
          fun i => (Op.constant d).eval x i * b.eval x i := by
        intro b x
        rw [hm.composition]
        simp only [evalComposition, eval_newDiagonal, Op.eval]
      simp only [List.mem_cons, List.not_mem_nil, or_false] at hr
      rcases hr with rfl | rfl
      · dsimp only at h
        split at h
        · rename_i e he
          split at h
          · cases h
            intro x
            rw [eval_newConstant, eval_const b e he]
            simp [Op.eval]
          · cases h
        · cases h
      · dsimp only at h
        split at h
        · cases h
          exact scaled _
        · split at h
          · cases h
            exact scaled _
          · cases h
    | zero =>
      simp only [productTable, productRules, Option.some.injEq] at hrs
      subst hrs
      rw [List.mem_singleton] at hr
      subst hr
      cases h
      intro x
      funext i
      simp [Op.eval]
    | power k =>
      simp only [productTable, productRules, Option.some.injEq] at hrs
      subst hrs
      simp only [List.mem_cons, List.not_mem_nil, or_false] at hr
      rcases hr with rfl | rfl
      · dsimp only at h
        split at h
        · cases h
          intro x
          rw [eval_newPower]
          funext i
          simp only [Op.eval]
          ring
        · cases h
      · dsimp only at h
        split at h
        · rename_i d hd
          cases h
          intro x
          rw [hm.product, eval_diag b d hd]
          funext i
          simp only [evalProduct, eval_newConstant, eval_newPower, Pi.one_apply, Op.eval]
          ring
        · cases h
    | product ops =>
      simp only [productTable, productRules, Option.some.injEq] at hrs
      subst hrs
      simp only [List.mem_cons, List.not_mem_nil, or_false] at hr
      rcases hr with rfl | rfl
      · dsimp only at h
        split at h
        · cases h
          intro x
          rw [hm.product, evalProduct_append]
          simp [Op.eval]
        · cases h
      · cases h
        intro x
        rw [hm.product, evalProduct_append]
        simp [Op.eval, evalProduct]
  zero := by
    intro o _ hz
    cases o with
    | homothety c =>
      simp only [productTable, Op.isZeroHomothety, decide_eq_true_eq] at hz
      exact absurd hz c.2
    | _ => simp [productTable, Op.isZeroHomothety] at hz

/-! ### The constructors of the composites -/

theorem newComposition_sound (ctx : Context K n) (hc : ctx.Sound) (m : Make K n) (hm : m.Sound) (ops : List (Op K n))
    (x : Vec K n) : (newComposition ctx m ops).eval x = evalComposition ops x := by
  have hs : evalComposition ((scalarTable ctx).applyHomothety ops) x = evalComposition ops x := by
    have := C16_scalars_moved scalarHom asEnd (scalarTable ctx) (scalarTable_sound ctx) ops
    rw [← effect_asEnd, ← effect_asEnd]
    exact congrFun this x
  unfold newComposition
  dsimp only
  split
  · rename_i res h
    have := C14_simplification_effect asEnd (compositionTable ctx m) (compositionTable_sound ctx hc m hm) _ _ _ _ h
    rw [eval_wrap_composition, ← hs, ← effect_asEnd, ← effect_asEnd]
    exact congrFun this.1 x
  · rw [eval_wrap_composition, hs]

theorem newSum_sound (ctx : Context K n) (m : Make K n) (hm : m.Sound) (ops : List (Op K n)) (x : Vec K n) :
    (newSum ctx m ops).eval x = evalSum ops x := by
  unfold newSum
  split
  · rename_i res h
    have := C15_sum_preserved asSum (sumTable ctx m) (sumTable_sound ctx m hm) _ _ _ _ h
    rw [eval_wrap_sum, ← total_asSum, ← total_asSum, this]
  · rw [eval_wrap_sum]

theorem newProduct_sound (ctx : Context K n) (m : Make K n) (hm : m.Sound) (ops : List (Op K n)) (x : Vec K n) :
    (newProduct ctx m ops).eval x = evalProduct ops x := by
  unfold newProduct
  split
  · rename_i res h
    have := C15_sum_preserved asProduct (productTable ctx m) (productTable_sound ctx m hm) _ _ _ _ h
    rw [eval_wrap_product, ← total_asProduct, ← total_asProduct, this]
  · rw [eval_wrap_product]

theorem make_sound (ctx : Context K n) (hc : ctx.Sound) (depth : Nat) : (make ctx depth).Sound := by
  induction depth with
  | zero => exact ⟨eval_wrap_sum, eval_wrap_product, eval_wrap_composition⟩
  | succ d ih =>
    exact ⟨newSum_sound ctx _ ih, newProduct_sound ctx _ ih, newComposition_sound ctx hc _ ih⟩

/-! ### The expressions -/

/-- The opposite of the operator is right: the operator has the flag linear or it is a constant. -/
def Negatable (ctx : Context K n) (o : Op K n) : Prop := ctx.linear o = true ∨ o.const?.isSome = true

/-- The opposites and the differences are only taken for operators of which the opposite is right. -/
def Expr.Regular (ctx : Context K n) (depth : Nat) : Expr K n → Prop
  | .op _ => True
  | .add a b => a.Regular ctx depth ∧ b.Regular ctx depth
  | .sub a b => a.Regular ctx depth ∧ b.Regular ctx depth ∧ Negatable ctx (build ctx depth b)
  | .neg a => a.Regular ctx depth ∧ Negatable ctx (build ctx depth a)
  | .scale _ a => a.Regular ctx depth
  | .comp a b => a.Regular ctx depth ∧ b.Regular ctx depth
  | .mul a b => a.Regular ctx depth ∧ b.Regular ctx depth

theorem opposite_eval (ctx : Context K n) (m : Make K n) (hm : m.Sound) (o : Op K n) (h : Negatable ctx o)
    (x : Vec K n) : (opposite ctx m o).eval x = fun i => -o.eval x i := by
  unfold opposite
  split
  · rw [eval_newConstant]
    simp [Op.eval]
  · funext i
    simp [Op.eval]
  · rename_i hc hz
    have hl : ctx.linear o = true := by
      rcases h with h | h
      · exact h
      · cases o <;> simp_all [Op.const?]
    rw [if_pos hl, hm.composition]
    simp only [evalComposition, eval_newHomothety]
    funext i
    ring

theorem multiple_eval (ctx : Context K n) (m : Make K n) (hm : m.Sound) (c : K) (o : Op K n)
    (x : Vec K n) : (multiple ctx m c o).eval x = fun i => c * o.eval x i := by
  unfold multiple
  split
  · rw [hm.composition]
    simp only [evalComposition, eval_newHomothety]
  · rw [hm.product]
    funext i
    simp [evalProduct, eval_newConstant]

/-- C107: whatever the depth of the rules and the flags of the operators, the operator built for an expression of sums,
differences, opposites, multiples, compositions and products computes the value of the expression, provided that the
opposites and the differences are those of linear operators or of constants.  Partial: see `C107_opposite_fails`. -/
theorem C107_expression_partial (ctx : Context K n) (hc : ctx.Sound) (depth : Nat) (e : Expr K n)
    (hr : e.Regular ctx depth) (x : Vec K n) : (build ctx depth e).eval x = e.value x := by
  have hm := make_sound ctx hc depth
  induction e generalizing x with
  | op o => rfl
  | add a b iha ihb =>
    simp only [build, hm.sum, evalSum, iha hr.1, ihb hr.2, Expr.value]
    funext i
    simp
  | sub a b iha ihb =>
    simp only [build, hm.sum, evalSum, iha hr.1, opposite_eval ctx _ hm _ hr.2.2, ihb hr.2.1, Expr.value]
    funext i
    simp [sub_eq_add_neg]
  | neg a ih =>
    simp only [build, opposite_eval ctx _ hm _ hr.2, ih hr.1, Expr.value]
  | scale c a ih =>
    simp only [build, multiple_eval ctx _ hm, ih hr, Expr.value]
  | comp a b iha ihb =>
    simp only [build, hm.composition, evalComposition, ihb hr.2, iha hr.1, Expr.value]
  | mul a b iha ihb =>
    simp only [build, hm.product, evalProduct, iha hr.1, ihb hr.2, Expr.value]
    funext i
    simp

/-- No opposite and no difference. -/
def Expr.positive : Expr K n → Bool
  | .op _ => true
  | .add a b => a.positive && b.positive
  | .sub _ _ => false
  | .neg _ => false
  | .scale _ a => a.positive
  | .comp a b => a.positive && b.positive
  | .mul a b => a.positive && b.positive

theorem positive_regular (ctx : Context K n) (depth : Nat) (e : Expr K n) (h : e.positive = true) :
    e.Regular ctx depth := by
  induction e with
  | op o => trivial
  | add a b iha ihb => simp only [Expr.positive, Bool.and_eq_true] at h; exact ⟨iha h.1, ihb h.2⟩
  | sub a b iha ihb => simp [Expr.positive] at h
  | neg a ih => simp [Expr.positive] at h
  | scale c a ih => exact ih h
  | comp a b iha ihb => simp only [Expr.positive, Bool.and_eq_true] at h; exact ⟨iha h.1, ihb h.2⟩
  | mul a b iha ihb => simp only [Expr.positive, Bool.and_eq_true] at h; exact ⟨iha h.1, ihb h.2⟩

/-- C107: sums, multiples, compositions and products of arbitrary operators, linear or not, compute their value. -/
theorem C107_positive (ctx : Context K n) (hc : ctx.Sound) (depth : Nat) (e : Expr K n) (h : e.positive = true)
    (x : Vec K n) : (build ctx depth e).eval x = e.value x :=
  C107_expression_partial ctx hc depth e (positive_regular ctx depth e h) x

/-- C107: enabling or disabling the rules, or changing what they know of the operators, does not change the result. -/
theorem C107_rules (ctx ctx' : Context K n) (hc : ctx.Sound) (hc' : ctx'.Sound) (depth depth' : Nat) (e : Expr K n)
    (h : e.positive = true) (x : Vec K n) : (build ctx depth e).eval x = (build ctx' depth' e).eval x := by
  rw [C107_positive ctx hc depth e h, C107_positive ctx' hc' depth' e h]

/-- C107: the simplification of a composition, of a sum and of a product ends, whatever the operands. -/
theorem C107_ends (ctx : Context K n) (hc : ctx.Sound) (depth : Nat) (ops : List (Op K n)) :
    (∃ res, (compositionTable ctx (make ctx depth)).applyRules false (2 * ops.length) ops = some (.ok res)) ∧
    (∃ res, (sumTable ctx (make ctx depth)).applyRules false (2 * ops.length) ops = some res) ∧
    ∃ res, (productTable ctx (make ctx depth)).applyRules false (2 * ops.length) ops = some res :=
  ⟨C14_terminates _ (compositionTable_merging ctx hc _ (make_sound ctx hc depth)) _ _, C15_terminates _ _ _,
    C15_terminates _ _ _⟩

/-- C107: the opposite of an operator that has not the flag linear and is not a constant is the operator multiplied by
the opposite of its input: every difference `A - B` with such an operator B is `A(x) - x * B(x)`. -/
theorem C107_opposite_product (ctx : Context K n) (hc : ctx.Sound) (depth : Nat) (a b : Op K n)
    (h : ¬ Negatable ctx b) (x : Vec K n) :
    (build ctx depth (.neg (.op b))).eval x = (fun i => -(x i * b.eval x i)) ∧
    (build ctx depth (.sub (.op a) (.op b))).eval x = fun i => a.eval x i - x i * b.eval x i := by
  have hm := make_sound ctx hc depth
  have key : (opposite ctx (make ctx depth) b).eval x = fun i => -(x i * b.eval x i) := by
    unfold opposite
    split
    · exact absurd (Or.inr rfl) h
    · exact absurd (Or.inr rfl) h
    · rw [if_neg (fun hl => h (Or.inl hl)), hm.product]
      funext i
      simp [evalProduct, eval_newHomothety]
  refine ⟨key, ?_⟩
  simp only [build, hm.sum, evalSum, key]
  funext i
  simp [sub_eq_add_neg]

/-- Two entries are the same. -/
def sameEntry (a b : Matrix (Fin 2) (Fin 2) Int) (i j : Fin 2) : Bool := a i j == b i j

/-- A context in which the inverses are those of the matrices, the idempotent operators are the constants, and
everything else is allowed. -/
def plainContext : Context Int 2 where
  forgotten _ := false
  fuse _ _ := true
  comm _ := false
  explicit _ _ := true
  dense _ := true
  inverse
    | .matrix a, .matrix b => decide (∀ i j, sameEntry (a * b) 1 i j = true)
    | _, _ => false
  idempotent
    | .constant b, .constant c => decide (b = c)
    | _, _ => false
  mro _ := 5

theorem plainContext_sound : plainContext.Sound where
  inverse := by
    intro a b h x
    cases a <;> cases b <;> simp only [plainContext, Bool.false_eq_true, decide_eq_true_eq] at h
    rename_i a b
    have e : a * b = 1 := by
      funext i j
      exact eq_of_beq (h i j)
    simp only [Op.eval]
    rw [Matrix.mulVec_mulVec, e, Matrix.one_mulVec]
  idempotent := by
    intro a b h x
    cases a <;> cases b <;> simp only [plainContext, Bool.false_eq_true, decide_eq_true_eq] at h
    simp [Op.eval]

/-- The operator that squares its input, without the rules of the powers. -/
def squares : Op Int 2 := .function fun x i => x i * x i

/-- C107: the real code breaks the property for the opposites and the differences: for the operator that squares, the
opposite at (1, 3) is (-1, -27) and not (-1, -9), and the identity minus the operator is (0, -24) and not (0, -6), at
every depth of the rules. -/
theorem C107_opposite_fails (depth : Nat) :
    (build plainContext depth (.neg (.op squares))).eval ![1, 3] = ![-1, -27] ∧
    (Expr.neg (.op squares)).value ![1, 3] = ![-1, -9] ∧
    (build plainContext depth (.sub (.op .identity) (.op squares))).eval ![1, 3] = ![0, -24] ∧
    (Expr.sub (.op .identity) (.op squares)).value ![1, 3] = ![0, -6] := by
  have h : ¬ Negatable plainContext squares := by
    simp [Negatable, Context.linear, squares, Op.isLinear, Op.const?]
  obtain ⟨h1, h2⟩ := C107_opposite_product plainContext plainContext_sound depth .identity squares h ![1, 3]
  refine ⟨?_, ?_, ?_, ?_⟩
  · rw [h1]
    funext i
    fin_cases i <;> simp [squares, Op.eval]
  · funext i
    fin_cases i <;> simp [Expr.value, squares, Op.eval]
  · rw [h2]
    funext i
    fin_cases i <;> simp [squares, Op.eval]
  · funext i
    fin_cases i <;> simp [Expr.value, squares, Op.eval]

/-- Instance of `C107_expression_partial`, `C107_positive` and `C107_rules`: 3 * (the constant (2, 5) times the powers
of two of (the diagonal (1, 4) plus the identity)) minus the diagonal, at the vector (1, 2). -/
example : (build plainContext 4 (.sub (.scale 3 (.mul (.op (.constant ![2, 5])) (.comp (.op (.power 2))
      (.add (.op (.diagonal ![1, 4])) (.op .identity))))) (.op (.diagonal ![1, 4])))).eval ![1, 2] = ![23, 1492] := by
  rw [C107_expression_partial plainContext plainContext_sound]
  · funext i
    fin_cases i <;> simp [Expr.value, Op.eval]
  · refine ⟨⟨trivial, trivial, trivial, trivial⟩, trivial, Or.inl rfl⟩

example : (build plainContext 7 (.comp (.op squares) (.scale 2 (.op (.matrix !![0, 1; 1, 0]))))).eval ![1, 3] =
    ![36, 4] := by
  rw [C107_positive plainContext plainContext_sound _ _ rfl]
  funext i
  fin_cases i <;> simp [Expr.value, Op.eval, squares]

example : (build plainContext 7 (.comp (.op squares) (.op (.matrix !![0, 1; 1, 0])))).eval ![1, 3] =
    (build plainContext 0 (.comp (.op squares) (.op (.matrix !![0, 1; 1, 0])))).eval ![1, 3] :=
  C107_rules plainContext plainContext plainContext_sound plainContext_sound _ _ _ rfl _

example : ∃ res, (compositionTable plainContext (make plainContext 3)).applyRules false 6
    [.matrix !![0, 1; 1, 0], .matrix !![0, 1; 1, 0], squares] = some (.ok res) :=
  (C107_ends plainContext plainContext_sound 3 _).1

end Verif.Expression
