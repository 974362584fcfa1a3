import Verif.Shape.Initial

/- Properties C26 and C59: the shapes of a composition. -/

namespace Verif.Shape

/-- The operands, the outermost first, send the last shape of the list to the ones before. -/
inductive Sends : List Op → List Shape → Prop
  | nil (x : Shape) : Sends [] [x]
  | cons {op : Op} {ops : List Op} {a b : Shape} {l : List Shape} (h : Sends ops (a :: l))
      (hab : op.reshapein a = some b) : Sends (op :: ops) (b :: a :: l)

/-- The operands agree: those that infer their input shape from their output shape find the same shapes. -/
inductive Agrees : List Op → List Shape → Prop
  | nil (x : Shape) : Agrees [] [x]
  | cons {op : Op} {ops : List Op} {a b : Shape} {l : List Shape} (h : Agrees ops (a :: l))
      (hba : op.reshapeout b = none ∨ op.reshapeout b = some a) : Agrees (op :: ops) (b :: a :: l)

theorem agree_none_left (s : Option Shape) : agree none s = true := rfl

theorem agree_some {a : Shape} {s : Option Shape} : agree (some a) s = true ↔ s = none ∨ s = some a := by
  cases s with
  | none => simp [agree]
  | some b =>
    simp only [agree, beq_iff_eq, reduceCtorEq, Option.some.injEq, false_or]
    exact eq_comm

theorem agree_comm (s t : Option Shape) : agree s t = agree t s := by
  cases s <;> cases t <;> simp [agree, Bool.beq_comm]

theorem sends_unique {ops : List Op} {l l' : List Shape} (h : Sends ops l) (h' : Sends ops l')
    (he : l.getLast? = l'.getLast?) : l = l' := by
  induction h generalizing l' with
  | nil x =>
    cases h' with
    | nil y => simpa using he
  | cons h hab ih =>
    cases h' with
    | cons h2 hab2 =>
      have := ih h2 (by simpa [List.getLast?_cons_cons] using he)
      cases this
      rw [hab] at hab2
      cases hab2; rfl

theorem scanOut_total (ops : List Op) (x : Shape) (ht : ∀ o ∈ ops, ∀ s, (o.reshapein s).isSome = true) :
    ∃ l, Sends ops l ∧ l.getLast? = some x ∧ scanOut none (some x) ops = some (l.map some) := by
  induction ops with
  | nil => exact ⟨[x], Sends.nil x, rfl, rfl⟩
  | cons op ops ih =>
    obtain ⟨l, h1, h2, h3⟩ := ih (fun o ho => ht o (by simp [ho]))
    cases l with
    | nil => cases h1
    | cons a l =>
      obtain ⟨b, hb⟩ := Option.isSome_iff_exists.mp (ht op (by simp) a)
      refine ⟨b :: a :: l, Sends.cons h1 hb, by simpa [List.getLast?_cons_cons] using h2, ?_⟩
      unfold scanOut
      rw [h3]
      simp [across, hb, agree]

theorem scanOut_head (so : Option Shape) (op : Op) (ops : List Op) (x : Shape)
    (ht : ∀ o ∈ op :: ops, ∀ s, (o.reshapein s).isSome = true) :
    ∃ b l, Sends (op :: ops) (b :: l) ∧ (b :: l).getLast? = some x ∧
      scanOut so (some x) (op :: ops) = if agree so (some b) then some ((b :: l).map some) else none := by
  obtain ⟨l, h1, h2, h3⟩ := scanOut_total ops x (fun o ho => ht o (by simp [ho]))
  cases l with
  | nil => cases h1
  | cons a l =>
    obtain ⟨b, hb⟩ := Option.isSome_iff_exists.mp (ht op (by simp) a)
    refine ⟨b, a :: l, Sends.cons h1 hb, by simpa [List.getLast?_cons_cons] using h2, ?_⟩
    conv_lhs => unfold scanOut
    rw [h3]
    simp [across, hb]

theorem scanIn_total {ops : List Op} {l : List Shape} (h : Sends ops l) (shapes : List (Option Shape)) :
    scanIn ops (l.map some) = some shapes ↔ Agrees ops l ∧ shapes = l.map some := by
  induction h generalizing shapes with
  | nil x =>
    simp only [List.map_cons, List.map_nil, scanIn, Option.some.injEq]
    exact ⟨fun h => ⟨Agrees.nil x, h.symm⟩, fun h => h.2.symm⟩
  | @cons op ops a b l h hab ih =>
    simp only [List.map_cons]
    have hsc : scanIn (op :: ops) (some b :: some a :: l.map some) = if agree (some a) (op.reshapeout b) then
        (scanIn ops (((op.reshapeout b).or (some a)) :: l.map some)).map (some b :: ·) else none := rfl
    rw [hsc]
    by_cases hag : agree (some a) (op.reshapeout b) = true
    · rw [if_pos hag]
      rw [agree_some] at hag
      have hor : ((op.reshapeout b).or (some a)) = some a := by
        rcases hag with q | q <;> simp [q]
      rw [hor]
      have ih' := fun sh => ih sh
      simp only [List.map_cons] at ih'
      rw [Option.map_eq_some_iff]
      constructor
      · rintro ⟨sh, h1, h2⟩
        obtain ⟨h3, h4⟩ := (ih' sh).mp h1
        exact ⟨Agrees.cons h3 hag, by rw [← h2, h4]⟩
      · rintro ⟨h1, h2⟩
        cases h1 with
        | cons h3 _ => exact ⟨_, (ih' _).mpr ⟨h3, rfl⟩, h2.symm⟩
    · rw [if_neg hag]
      simp only [reduceCtorEq, false_iff]
      rintro ⟨h1, _⟩
      cases h1 with
      | cons _ hba => exact hag (agree_some.mpr hba)

/-- C26.  The shapes that a composition gives to its operands, when its input has the shape x and none of its operands has an
unconstrained output, are those obtained by applying the operands successively; they are rejected if and only if an operand that
infers its input from its output, or the output that is given, disagrees. -/
theorem C26_call (so : Option Shape) (op : Op) (ops : List Op) (x : Shape) (shapes : List (Option Shape))
    (hi : ∀ o ∈ op :: ops, Initialised o ∧ o.kindout ≠ .unconstrained) :
    getShapes (some x) so (op :: ops) = some shapes ↔
      ∃ l, Sends (op :: ops) l ∧ Agrees (op :: ops) l ∧ l.getLast? = some x ∧ (so = none ∨ so = l.head?) ∧
        shapes = l.map some := by
  have ht : ∀ o ∈ op :: ops, ∀ s, (o.reshapein s).isSome = true := by
    intro o ho s
    obtain ⟨I, hk⟩ := hi o ho
    cases hko : o.kindout with
    | explicit =>
      obtain ⟨t, e⟩ := Option.ne_none_iff_exists'.mp (I.kindout.mp hko)
      rw [I.reshapein t e s]; rfl
    | implicit => exact I.implicitout hko s
    | unconstrained => exact absurd hko hk
  obtain ⟨b, l, h1, h2, h3⟩ := scanOut_head so op ops x ht
  unfold getShapes
  rw [h3]
  by_cases hag : agree so (some b) = true
  · rw [if_pos hag]
    simp only
    rw [scanIn_total h1]
    have hso : so = none ∨ so = some b := by
      rw [agree_comm, agree_some] at hag; exact hag
    constructor
    · rintro ⟨p, q⟩
      exact ⟨b :: l, h1, p, h2, hso, q⟩
    · rintro ⟨l', p1, p2, p3, p4, p5⟩
      have := sends_unique h1 p1 (h2.trans p3.symm)
      subst this
      exact ⟨p2, p5⟩
  · rw [if_neg hag]
    simp only [reduceCtorEq, false_iff]
    rintro ⟨l', p1, p2, p3, p4, p5⟩
    have := sends_unique h1 p1 (h2.trans p3.symm)
    subst this
    apply hag
    rw [agree_comm, agree_some]
    exact p4

/-! ### Operands of any kind -/

/-- An operand, its output shape and its input shape, that can be unknown, do not contradict each other. -/
structure Fits (op : Op) (b a : Option Shape) : Prop where
  forth : ∀ s, a = some s → ∀ t, op.reshapein s = some t → b = some t
  back : ∀ t, b = some t → ∀ s, op.reshapeout t = some s → a = some s
  out : a = none → ∀ t, op.shapeout = some t → b = some t
  inn : b = none → ∀ s, op.shapein = some s → a = some s

/-- All the operands of a composition fit. -/
def AllFit : List Op → List (Option Shape) → Prop
  | op :: ops, b :: a :: rest => Fits op b a ∧ AllFit ops (a :: rest)
  | [], [_] => True
  | _, _ => False

/-- The methods reshapein and reshapeout of an operator do not contradict each other: if the input shape s is inferred from the output
shape t, the output shape inferred from s is t. -/
def Lawful (op : Op) : Prop :=
  op.shapeout = none → ∀ t s, op.reshapeout t = some s → op.reshapein s = none ∨ op.reshapein s = some t

/-- Result of the first scan. -/
def Pre : List Op → List (Option Shape) → Prop
  | op :: ops, b :: a :: rest =>
    ((∀ s, a = some s → ∀ t, op.reshapein s = some t → b = some t) ∧
      (a = none → ∀ t, op.shapeout = some t → b = some t)) ∧ Pre ops (a :: rest)
  | [], [_] => True
  | _, _ => False

theorem scanOut_pre (so sin : Option Shape) (ops : List Op) (shapes : List (Option Shape))
    (h : scanOut so sin ops = some shapes) :
    Pre ops shapes ∧ (∀ x, sin = some x → shapes.getLast? = some (some x)) ∧
      (ops ≠ [] → ∀ y, so = some y → shapes.head? = some (some y)) := by
  induction ops generalizing so shapes with
  | nil =>
    simp only [scanOut, Option.some.injEq] at h
    subst h
    exact ⟨trivial, fun x hx => by simp [hx], by simp⟩
  | cons op ops ih =>
    unfold scanOut at h
    cases h1 : scanOut none sin ops with
    | none => rw [h1] at h; cases h
    | some r =>
      rw [h1] at h
      cases r with
      | nil => cases h
      | cons cur rest =>
        simp only at h
        split at h
        · rename_i hag
          simp only [Option.some.injEq] at h
          subst h
          obtain ⟨p1, p2, _⟩ := ih none (cur :: rest) h1
          refine ⟨⟨⟨?_, ?_⟩, p1⟩, ?_, ?_⟩
          · rintro s rfl t ht
            simp [across, ht]
          · rintro rfl t ht
            simp [across, ht]
          · intro x hx
            rw [List.getLast?_cons_cons]
            exact p2 x hx
          · rintro _ y rfl
            rw [agree_some] at hag
            simp only [List.head?_cons, Option.some.injEq]
            rcases hag with q | q <;> rw [q] <;> rfl
        · cases h

theorem pre_extend {ops : List Op} {a a' : Option Shape} {rest : List (Option Shape)} (h : Pre ops (a :: rest))
    (hext : ∀ s, a = some s → a' = some s) : Pre ops (a' :: rest) := by
  cases ops with
  | nil =>
    cases rest with
    | nil => trivial
    | cons _ _ => exact h.elim
  | cons op ops =>
    cases rest with
    | nil => exact h.elim
    | cons c rest =>
      obtain ⟨⟨h1, h2⟩, h3⟩ := h
      exact ⟨⟨fun s hs t ht => hext t (h1 s hs t ht), fun hn t ht => hext t (h2 hn t ht)⟩, h3⟩

theorem scanIn_fit (ops : List Op) (shapes r : List (Option Shape)) (hp : Pre ops shapes)
    (hl : ∀ o ∈ ops, Initialised o ∧ Lawful o) (hu : ∀ o ∈ ops, o.shapeout = none → ∀ s, o.shapein = some s → o.reshapein s = none)
    (h : scanIn ops shapes = some r) :
    AllFit ops r ∧ r.head? = shapes.head? ∧ (∀ x, shapes.getLast? = some (some x) → r.getLast? = some (some x)) := by
  induction ops generalizing shapes r with
  | nil =>
    cases shapes with
    | nil => exact hp.elim
    | cons a rest =>
      cases rest with
      | cons _ _ => exact hp.elim
      | nil =>
        simp only [scanIn, Option.some.injEq] at h
        subst h
        exact ⟨trivial, rfl, fun _ h => h⟩
  | cons op ops ih =>
    cases shapes with
    | nil => exact hp.elim
    | cons b rest =>
      cases rest with
      | nil => exact hp.elim
      | cons a rest =>
        obtain ⟨⟨f1, f2⟩, f3⟩ := hp
        simp only [scanIn] at h
        set s := across b op.shapein op.reshapeout with hs
        split at h
        · rename_i hag
          rw [Option.map_eq_some_iff] at h
          obtain ⟨r', h1, h2⟩ := h
          have hext : ∀ x, a = some x → s.or a = some x := by
            rintro x rfl
            rcases agree_some.mp hag with q | q <;> rw [q] <;> rfl
          obtain ⟨p1, p2, p3⟩ := ih (s.or a :: rest) r' (pre_extend f3 hext) (fun o ho => hl o (by simp [ho]))
            (fun o ho => hu o (by simp [ho])) h1
          cases r' with
          | nil => cases p2
          | cons n r' =>
            simp only [List.head?_cons, Option.some.injEq] at p2
            subst p2
            rw [← h2]
            obtain ⟨I, L⟩ := hl op (by simp)
            have hsnone : a ≠ none → s = none ∨ s = a := by
              intro hne
              obtain ⟨x, rfl⟩ := Option.ne_none_iff_exists'.mp hne
              exact agree_some.mp hag
            refine ⟨⟨⟨?_, ?_, ?_, ?_⟩, p1⟩, rfl, ?_⟩
            · intro x hx t ht
              cases ha : a with
              | some a0 =>
                have := hext a0 ha
                rw [this] at hx
                cases hx
                exact f1 x ha t ht
              | none =>
                have hsx : s = some x := by rw [ha] at hx; simpa using hx
                cases hb : b with
                | some c =>
                  have hc : op.reshapeout c = some x := by rw [hs, hb] at hsx; exact hsx
                  cases hso : op.shapeout with
                  | some u =>
                    have e1 := f2 ha u hso
                    have e2 := I.reshapein u hso x
                    rw [e2] at ht; cases ht
                    rw [← hb]; exact e1
                  | none =>
                    rcases L hso c x hc with q | q
                    · rw [q] at ht; cases ht
                    · rw [q] at ht; cases ht; rfl
                | none =>
                  have hc : op.shapein = some x := by rw [hs, hb] at hsx; exact hsx
                  cases hso : op.shapeout with
                  | some u =>
                    have e1 := f2 ha u hso
                    rw [hb] at e1; cases e1
                  | none =>
                    rw [hu op (by simp) hso x hc] at ht; cases ht
            · rintro t rfl x hx
              have : s = some x := hx
              rw [this]; rfl
            · intro hn t ht
              have ha : a = none := by
                cases ha : a with
                | none => rfl
                | some a0 => rw [hext a0 ha] at hn; cases hn
              exact f2 ha t ht
            · rintro rfl x hx
              have : s = some x := hx
              rw [this]; rfl
            · intro x hx
              rw [List.getLast?_cons_cons] at hx ⊢
              apply p3
              cases rest with
              | nil =>
                simp only [List.getLast?_singleton, Option.some.injEq] at hx ⊢
                exact hext x hx
              | cons c rest =>
                rw [List.getLast?_cons_cons] at hx ⊢
                exact hx
        · cases h

/-- An operator that has been initialised with a known input and an unknown output does not infer its output. -/
theorem init_unconstrained (d : Decl) (op : Op) (h : init d = some op) (hso : op.shapeout = none) (s : Shape)
    (hs : op.shapein = some s) : ∀ a, op.reshapein a = none := by
  obtain ⟨sin, sout, h1, h2, _, _, rfl⟩ := init_eq h
  obtain ⟨p1, p2, p3, _⟩ := fill_some h1
  obtain ⟨q1, q2, q3, _⟩ := fill_some h2
  simp only [finishInit] at hso hs ⊢
  cases hq : squareOf d sin sout with
  | true =>
    rw [hq] at hso hs
    simp only [if_true] at hso hs
    rw [hso] at hs; cases hs
  | false =>
    rw [hq] at hso hs
    simp only [Bool.false_eq_true, if_false] at hso hs
    subst hso; subst hs
    have hin : d.shapein = some s := (q3 rfl).symm
    have hout : d.shapeout = none := by
      by_contra hne
      exact hne (p1 hne).symm
    have := p2 hout s hin
    cases hf : d.reshapein with
    | none => intro a; simp [reshapeOf]
    | some f => rw [hf] at this; cases this

/-- C26 (partial).  Whatever the kinds of the operands and the shapes that are known, the shapes found by a composition do not contradict
its operands nor the shapes that are given.  Missing: operands whose reshapein and reshapeout are not inverse of each other for all
shapes (C26_rejection_fails). -/
theorem C26_known_partial (sin so : Option Shape) (ops : List Op) (shapes : List (Option Shape))
    (hd : ∀ o ∈ ops, ∃ d, init d = some o) (hl : ∀ o ∈ ops, Lawful o) (hne : ops ≠ [])
    (h : getShapes sin so ops = some shapes) :
    AllFit ops shapes ∧ (∀ x, sin = some x → shapes.getLast? = some (some x)) ∧
      (∀ y, so = some y → shapes.head? = some (some y)) := by
  unfold getShapes at h
  cases h1 : scanOut so sin ops with
  | none => rw [h1] at h; cases h
  | some r =>
    rw [h1] at h
    obtain ⟨p1, p2, p3⟩ := scanOut_pre so sin ops r h1
    obtain ⟨q1, q2, q3⟩ := scanIn_fit ops r shapes p1
      (fun o ho => by obtain ⟨d, hd⟩ := hd o ho; exact ⟨C60_initialised d o hd, hl o ho⟩)
      (fun o ho hso s hs => by obtain ⟨d, hd⟩ := hd o ho; exact init_unconstrained d o hd hso s hs s) h
    exact ⟨q1, fun x hx => q3 x (p2 x hx), fun y hy => q2.trans (p3 hne y hy)⟩

/-! ### The composition itself -/

theorem sends_all {ops : List Op} (hk : ∀ o ∈ ops, ∀ s, (o.reshapein s).isSome = true) (x : Shape) :
    ∃ l, Sends ops l ∧ l.getLast? = some x ∧ l.head? = some (reshapeAll ops x) := by
  induction ops with
  | nil => exact ⟨[x], Sends.nil x, rfl, rfl⟩
  | cons op ops ih =>
    obtain ⟨l, h1, h2, h3⟩ := ih (fun o ho => hk o (by simp [ho]))
    cases l with
    | nil => cases h1
    | cons a l =>
      obtain ⟨b, hb⟩ := Option.isSome_iff_exists.mp (hk op (by simp) a)
      refine ⟨b :: a :: l, Sends.cons h1 hb, by simpa [List.getLast?_cons_cons] using h2, ?_⟩
      simp only [List.head?_cons, Option.some.injEq] at h3 ⊢
      simp only [reshapeAll, List.foldr_cons]
      rw [show List.foldr (fun o s => (o.reshapein s).getD s) x ops = a from h3.symm, hb]
      rfl

theorem scan_none (ops : List Op) (hs : ∀ o ∈ ops, o.shapein = none ∧ o.shapeout = none) :
    scanOut none none ops = some (List.replicate (ops.length + 1) none) ∧
      scanIn ops (List.replicate (ops.length + 1) none) = some (List.replicate (ops.length + 1) none) := by
  induction ops with
  | nil => exact ⟨rfl, rfl⟩
  | cons op ops ih =>
    obtain ⟨h1, h2⟩ := ih (fun o ho => hs o (by simp [ho]))
    obtain ⟨hi, ho⟩ := hs op (by simp)
    refine ⟨?_, ?_⟩
    · unfold scanOut
      rw [h1]
      simp [List.replicate_succ, ho, agree, across]
    · simp only [List.length_cons, List.replicate_succ, scanIn, hi, agree, across, if_true, Option.none_or]
      rw [show (none :: List.replicate ops.length none : List (Option Shape)) = List.replicate (ops.length + 1) none from
        List.replicate_succ.symm, h2]
      rfl

/-- C26.  The output shape of a composition of operands that are all implicit is the one obtained by applying successively the
operands to the input shape; a call with an input of this shape that is accepted has an output of this shape. -/
theorem C26_implicit (ops : List Op) (op : Op) (hd : ∀ o ∈ ops, ∃ d, init d = some o)
    (hk : ∀ o ∈ ops, o.kindout = .implicit) (h : compose ops = some op) (x : Shape) :
    (∃ l y, Sends ops l ∧ l.getLast? = some x ∧ l.head? = some y ∧ op.reshapein x = some y) ∧
    (∀ a b, validateShapes op (some x) none = some (a, b) →
      ∃ l, Sends ops l ∧ l.getLast? = a ∧ l.head? = b ∧ a = some x) := by
  have hI : ∀ o ∈ ops, Initialised o := fun o ho => by obtain ⟨d, hd⟩ := hd o ho; exact C60_initialised d o hd
  have hall : ∀ o ∈ ops, ∀ s, (o.reshapein s).isSome = true := fun o ho s => (hI o ho).implicitout (hk o ho) s
  have hshapes : ∀ o ∈ ops, o.shapein = none ∧ o.shapeout = none := by
    intro o ho
    have h1 : o.shapeout = none := by
      by_contra hne
      have := (hI o ho).kindout.mpr hne
      rw [hk o ho] at this; cases this
    refine ⟨?_, h1⟩
    by_contra hne
    obtain ⟨s, hs⟩ := Option.ne_none_iff_exists'.mp hne
    obtain ⟨d, hd⟩ := hd o ho
    have := init_unconstrained d o hd h1 s hs s
    have h2 := hall o ho s
    rw [this] at h2; cases h2
  obtain ⟨l, l1, l2, l3⟩ := sends_all hall x
  cases hops : ops with
  | nil => rw [hops] at h; cases h
  | cons o1 rest =>
    have hex : ∃ on, ops.getLast? = some on ∧ on ∈ ops := by
      rw [hops]
      exact ⟨(o1 :: rest).getLast (by simp), List.getLast?_eq_some_getLast (by simp), List.getLast_mem _⟩
    obtain ⟨on, hon, honm⟩ := hex
    have ho1 : ops.head? = some o1 := by rw [hops]; rfl
    unfold compose at h
    rw [ho1, hon] at h
    simp only [(hshapes on honm).1, (hshapes o1 (by rw [hops]; simp)).2] at h
    have hget : getShapes none none ops = some (List.replicate (ops.length + 1) none) := by
      obtain ⟨e1, e2⟩ := scan_none ops hshapes
      simp only [getShapes, e1, e2]
    rw [hget] at h
    simp only at h
    have hlast : (List.replicate (ops.length + 1) (none : Option Shape)).getLast?.getD none = none := by
      rw [List.getLast?_replicate]; simp
    have hhead : (List.replicate (ops.length + 1) (none : Option Shape)).head?.getD none = none := by
      rw [List.replicate_succ]; rfl
    rw [hlast, hhead] at h
    -- the initialisation
    simp only [init, fill, checked, Bool.and_self, if_true, Option.some.injEq] at h
    have hmerge : ∃ f, mergeReshapein ops = some f ∧ (ops.all (fun o => o.square) = false → f x = reshapeAll ops x) := by
      unfold mergeReshapein
      rw [if_neg]
      · cases hsq : ops.all (fun o => o.square) with
        | true => rw [hon]; exact ⟨_, rfl, by simp⟩
        | false => exact ⟨_, rfl, fun _ => rfl⟩
      · simp only [List.any_eq_true, decide_eq_true_eq, not_exists, not_and, not_not, ne_eq]
        exact fun o ho => hk o ho
    obtain ⟨f, hf1, hf2⟩ := hmerge
    have hid : ops.all (fun o => o.square) = true → reshapeAll ops x = x := by
      intro hsq
      rw [List.all_eq_true] at hsq
      clear h hget hlast hhead l1 l2 l3 ho1 hon hf1 hf2 honm hd hk hops hall
      induction ops with
      | nil => rfl
      | cons o ops ih =>
        simp only [reshapeAll, List.foldr_cons]
        rw [show List.foldr (fun o s => (o.reshapein s).getD s) x ops = x from
          ih (fun o ho => hI o (by simp [ho])) (fun o ho => hshapes o (by simp [ho])) (fun o ho => hsq o (by simp [ho]))]
        rw [(((hI o (by simp)).square (hsq o (by simp))).2.2 (hshapes o (by simp)).1 x).1]
        rfl
    have hre : op.reshapein x = some (reshapeAll ops x) ∧ op.kindout = .implicit ∧ op.shapeout = none := by
      rw [← h]
      simp only [finishInit, squareOf]
      cases hsq : ops.all (fun o => o.square) with
      | true => rw [hid hsq]; simp [reshapeOf, kindOf]
      | false =>
        rw [hf1]
        simp [reshapeOf, kindOf, hf2 hsq]
    rw [← hops]
    refine ⟨⟨l, _, l1, l2, l3, hre.1⟩, ?_⟩
    intro a b hv
    unfold validateShapes at hv
    simp only [infer, hre.2.1, inferImplicit, Option.bind_some, hre.1] at hv
    split at hv
    · cases hv
    · rename_i sout hv1
      split at hv
      · cases hv
      · rename_i sin hv2
        split at hv
        · simp only [Option.some.injEq, Prod.mk.injEq, Option.some_or, Option.none_or] at hv
          obtain ⟨rfl, rfl⟩ := hv
          refine ⟨l, l1, l2, ?_, rfl⟩
          rw [l3]
          split at hv1
          · split at hv1
            · simpa using hv1
            · cases hv1
          · cases hv1
        · cases hv

/-- The shapes found from the output: the operands are asked for their input shapes, from the outermost one. -/
inductive Asks : List Op → List Shape → Prop
  | nil (x : Shape) : Asks [] [x]
  | cons {op : Op} {ops : List Op} {a b : Shape} {l : List Shape} (h : Asks ops (a :: l))
      (hab : op.reshapeout b = some a) : Asks (op :: ops) (b :: a :: l)

theorem asks_all {ops : List Op} (hk : ∀ o ∈ ops, ∀ s, (o.reshapeout s).isSome = true) (y : Shape) :
    ∃ l, Asks ops (y :: l) ∧ (y :: l).getLast? = some (reshapeAllBack ops y) := by
  induction ops generalizing y with
  | nil => exact ⟨[], Asks.nil y, rfl⟩
  | cons op ops ih =>
    obtain ⟨a, ha⟩ := Option.isSome_iff_exists.mp (hk op (by simp) y)
    obtain ⟨l, h1, h2⟩ := ih (fun o ho => hk o (by simp [ho])) a
    refine ⟨a :: l, Asks.cons h1 ha, ?_⟩
    rw [List.getLast?_cons_cons, h2]
    simp [reshapeAllBack, ha]

/-- An operator that has been initialised with a known output and an unknown input does not infer its input. -/
theorem init_unconstrained_in (d : Decl) (op : Op) (h : init d = some op) (hsi : op.shapein = none) (t : Shape)
    (ht : op.shapeout = some t) : ∀ b, op.reshapeout b = none := by
  obtain ⟨sin, sout, h1, h2, _, _, rfl⟩ := init_eq h
  obtain ⟨q1, q2, q3, _⟩ := fill_some h2
  simp only [finishInit] at hsi ht ⊢
  cases hq : squareOf d sin sout with
  | true =>
    rw [hq] at hsi ht
    simp only [if_true] at hsi ht
    rw [hsi] at ht; cases ht
  | false =>
    rw [hq] at hsi ht
    simp only [Bool.false_eq_true, if_false] at hsi ht
    subst hsi; subst ht
    have hin : d.shapein = none := by
      by_contra hne
      exact hne (q1 hne).symm
    have := q2 hin t rfl
    cases hf : d.reshapeout with
    | none => intro a; simp [reshapeOf]
    | some f => rw [hf] at this; cases this

/-- C26.  The input shape of a composition of operands that all infer their input shape is the one obtained by asking successively the
operands, from the outermost one. -/
theorem C26_back (ops : List Op) (op : Op) (hd : ∀ o ∈ ops, ∃ d, init d = some o)
    (hk : ∀ o ∈ ops, o.kindin = .implicit) (h : compose ops = some op) (y : Shape) :
    ∃ l x, Asks ops l ∧ l.head? = some y ∧ l.getLast? = some x ∧ op.reshapeout y = some x := by
  have hI : ∀ o ∈ ops, Initialised o := fun o ho => by obtain ⟨d, hd⟩ := hd o ho; exact C60_initialised d o hd
  have hall : ∀ o ∈ ops, ∀ s, (o.reshapeout s).isSome = true := fun o ho s => (hI o ho).implicitin (hk o ho) s
  have hshapes : ∀ o ∈ ops, o.shapein = none ∧ o.shapeout = none := by
    intro o ho
    have h1 : o.shapein = none := by
      by_contra hne
      have := (hI o ho).kindin.mpr hne
      rw [hk o ho] at this; cases this
    refine ⟨h1, ?_⟩
    by_contra hne
    obtain ⟨s, hs⟩ := Option.ne_none_iff_exists'.mp hne
    obtain ⟨d, hd⟩ := hd o ho
    have := init_unconstrained_in d o hd h1 s hs s
    have h2 := hall o ho s
    rw [this] at h2; cases h2
  obtain ⟨l, l1, l2⟩ := asks_all hall y
  cases hops : ops with
  | nil => rw [hops] at h; cases h
  | cons o1 rest =>
    have hex : ∃ on, ops.getLast? = some on ∧ on ∈ ops := by
      rw [hops]
      exact ⟨(o1 :: rest).getLast (by simp), List.getLast?_eq_some_getLast (by simp), List.getLast_mem _⟩
    obtain ⟨on, hon, honm⟩ := hex
    have ho1 : ops.head? = some o1 := by rw [hops]; rfl
    unfold compose at h
    rw [ho1, hon] at h
    simp only [(hshapes on honm).1, (hshapes o1 (by rw [hops]; simp)).2] at h
    have hget : getShapes none none ops = some (List.replicate (ops.length + 1) none) := by
      obtain ⟨e1, e2⟩ := scan_none ops hshapes
      simp only [getShapes, e1, e2]
    rw [hget] at h
    simp only at h
    have hlast : (List.replicate (ops.length + 1) (none : Option Shape)).getLast?.getD none = none := by
      rw [List.getLast?_replicate]; simp
    have hhead : (List.replicate (ops.length + 1) (none : Option Shape)).head?.getD none = none := by
      rw [List.replicate_succ]; rfl
    rw [hlast, hhead] at h
    simp only [init, fill, checked, Bool.and_self, if_true, Option.some.injEq] at h
    have hmerge : ∃ f, mergeReshapeout ops = some f ∧ (ops.all (fun o => o.square) = false → f y = reshapeAllBack ops y) := by
      unfold mergeReshapeout
      rw [if_neg]
      · cases hsq : ops.all (fun o => o.square) with
        | true => rw [ho1]; exact ⟨_, rfl, by simp⟩
        | false => exact ⟨_, rfl, fun _ => rfl⟩
      · simp only [List.any_eq_true, decide_eq_true_eq, not_exists, not_and, not_not, ne_eq]
        exact fun o ho => hk o ho
    obtain ⟨f, hf1, hf2⟩ := hmerge
    have hid : ops.all (fun o => o.square) = true → reshapeAllBack ops y = y := by
      intro hsq
      rw [List.all_eq_true] at hsq
      clear h hget hlast hhead l1 l2 ho1 hon hf1 hf2 honm hd hk hops hall
      induction ops with
      | nil => rfl
      | cons o ops ih =>
        simp only [reshapeAllBack, List.foldl_cons]
        rw [(((hI o (by simp)).square (hsq o (by simp))).2.2 (hshapes o (by simp)).1 y).2]
        exact ih (fun o ho => hI o (by simp [ho])) (fun o ho => hshapes o (by simp [ho])) (fun o ho => hsq o (by simp [ho]))
    have hre : op.reshapeout y = some (reshapeAllBack ops y) := by
      rw [← h]
      simp only [finishInit, squareOf]
      cases hsq : ops.all (fun o => o.square) with
      | true => rw [hid hsq]; simp [reshapeOf]
      | false =>
        rw [hf1]
        simp [reshapeOf, hf2 hsq]
    rw [← hops]
    exact ⟨y :: l, _, l1, rfl, l2, hre⟩

/-! ### Validation -/

/-- The shapes given to an operand are accepted by its validations. -/
def AllValid : List Op → List (Option Shape) → Prop
  | op :: ops, b :: a :: rest =>
    ((∀ s, a = some s → op.validatein s = true) ∧ (∀ t, b = some t → op.validateout t = true)) ∧ AllValid ops (a :: rest)
  | _, _ => True

/-- C59 (partial).  If the operands of a composition have no validation other than the one of explicit shapes, the shapes given to the
operands have been accepted by all of them.  Missing: the operands that have their own validations, which are not
called (C59_composition_fails). -/
theorem C59_composition_partial (sin so : Option Shape) (ops : List Op) (shapes : List (Option Shape))
    (hd : ∀ o ∈ ops, ∃ d, init d = some o ∧ d.validatein = none ∧ d.validateout = none) (hl : ∀ o ∈ ops, Lawful o)
    (hne : ops ≠ []) (h : getShapes sin so ops = some shapes) : AllValid ops shapes := by
  obtain ⟨hfit, hx1, hx2⟩ := C26_known_partial sin so ops shapes (fun o ho => by
    obtain ⟨d, h1, _⟩ := hd o ho; exact ⟨d, h1⟩) hl hne h
  clear h hne hl hx1 hx2
  induction ops generalizing shapes with
  | nil => cases shapes <;> trivial
  | cons op ops ih =>
    cases shapes with
    | nil => trivial
    | cons b rest =>
      cases rest with
      | nil => trivial
      | cons a rest =>
        obtain ⟨F, hfit⟩ := hfit
        refine ⟨?_, ih (a :: rest) (fun o ho => hd o (by simp [ho])) hfit⟩
        obtain ⟨d, hd1, hd2, hd3⟩ := hd op (by simp)
        have I := C60_initialised d op hd1
        have hvi : op.shapein = none → ∀ s, op.validatein s = true := by
          intro hn s
          obtain ⟨si, sou, _, _, _, _, rfl⟩ := init_eq hd1
          simp only [finishInit] at hn ⊢
          rw [hn, hd2]; rfl
        have hvo : op.shapeout = none → ∀ s, op.validateout s = true := by
          intro hn s
          obtain ⟨si, sou, _, _, _, _, rfl⟩ := init_eq hd1
          simp only [finishInit] at hn ⊢
          rw [hn, hd2, hd3]
          split <;> rfl
        refine ⟨?_, ?_⟩
        · intro s hs
          cases hsi : op.shapein with
          | none => exact hvi hsi s
          | some u =>
            rw [I.validatein u hsi]
            cases hb : b with
            | none => have := F.inn hb u hsi; rw [hs] at this; exact Option.some.inj this
            | some c => have := F.back c hb u (I.reshapeout u hsi c); rw [hs] at this; exact Option.some.inj this
        · intro t ht
          cases hsi : op.shapeout with
          | none => exact hvo hsi t
          | some u =>
            rw [I.validateout u hsi]
            cases ha : a with
            | none => have := F.out ha u hsi; rw [ht] at this; exact Option.some.inj this
            | some c => have := F.forth c ha u (I.reshapein u hsi c); rw [ht] at this; exact Option.some.inj this

/-! ### Examples and witnesses -/

/-- Operands of the samples. -/
def opOf (d : Decl) : Op := (init d).getD
  { shapein := none, shapeout := none, reshapein := fun _ => none, reshapeout := fun _ => none, validatein := fun _ => false,
    validateout := fun _ => false, kindin := .unconstrained, kindout := .unconstrained, square := false }

/-- An operand that reverses the dimensions. -/
def reversing : Decl := { reshapein := some List.reverse, reshapeout := some List.reverse }

/-- An operand that adds a dimension. -/
def adding : Decl := { reshapein := some (fun s => s ++ [2]), reshapeout := some List.dropLast }

/-- Hypotheses of C26_call: an explicit operand after two implicit ones. -/
example : (∀ o ∈ [opOf { shapein := some [2, 7], shapeout := some [4] }, opOf reversing, opOf adding],
      Initialised o ∧ o.kindout ≠ .unconstrained) ∧
    getShapes (some [7]) none [opOf { shapein := some [2, 7], shapeout := some [4] }, opOf reversing, opOf adding] =
      some [some [4], some [2, 7], some [7, 2], some [7]] ∧
    getShapes (some [8]) none [opOf { shapein := some [2, 7], shapeout := some [4] }, opOf reversing, opOf adding] = none := by
  refine ⟨?_, rfl, rfl⟩
  intro o ho
  simp only [List.mem_cons, List.not_mem_nil, or_false] at ho
  rcases ho with rfl | rfl | rfl
  · exact ⟨C60_initialised { shapein := some [2, 7], shapeout := some [4] } _ rfl, by decide⟩
  · exact ⟨C60_initialised reversing _ rfl, by decide⟩
  · exact ⟨C60_initialised adding _ rfl, by decide⟩

/-- Hypotheses of C26_known_partial and C59_composition_partial: the shapes are inferred in both directions, and the one of
the innermost operand, which is unconstrained, is not known. -/
example : (∀ o ∈ [opOf reversing, opOf { shapein := some [2, 7] }, opOf { shapeout := some [2, 7] }],
      ∃ d, init d = some o ∧ d.validatein = none ∧ d.validateout = none) ∧
    (∀ o ∈ [opOf reversing, opOf { shapein := some [2, 7] }, opOf { shapeout := some [2, 7] }], Lawful o) ∧
    getShapes none (some [5, 6]) [opOf reversing, opOf { shapein := some [2, 7] }, opOf { shapeout := some [2, 7] }] =
      some [some [5, 6], some [6, 5], some [2, 7], none] := by
  refine ⟨?_, ?_, rfl⟩
  · intro o ho
    simp only [List.mem_cons, List.not_mem_nil, or_false] at ho
    rcases ho with rfl | rfl | rfl
    · exact ⟨reversing, rfl, rfl, rfl⟩
    · exact ⟨{ shapein := some [2, 7] }, rfl, rfl, rfl⟩
    · exact ⟨{ shapeout := some [2, 7] }, rfl, rfl, rfl⟩
  · intro o ho
    simp only [List.mem_cons, List.not_mem_nil, or_false] at ho
    rcases ho with rfl | rfl | rfl
    · intro _ t s hs
      right
      have : t.reverse = s := by simpa [opOf, init, reversing, fill, checked, finishInit, squareOf, reshapeOf] using hs
      simp [opOf, init, reversing, fill, checked, finishInit, squareOf, reshapeOf, ← this]
    · intro _ t s _; left; rfl
    · intro h; cases h

/-- Hypotheses of C26_implicit. -/
example : ∃ op, compose [opOf reversing, opOf { square := true }, opOf adding] = some op ∧
    (∀ o ∈ [opOf reversing, opOf { square := true }, opOf adding], o.kindout = .implicit) ∧
    op.reshapein [7, 8] = some [2, 8, 7] ∧
    validateShapes op (some [7, 8]) none = some (some [7, 8], some [2, 8, 7]) :=
  ⟨_, rfl, by decide, rfl, rfl⟩

/-- Hypotheses of C26_back. -/
example : ∃ op, compose [opOf reversing, opOf { square := true }, opOf adding] = some op ∧
    (∀ o ∈ [opOf reversing, opOf { square := true }, opOf adding], o.kindin = .implicit) ∧
    op.reshapeout [2, 8, 7] = some [7, 8] :=
  ⟨_, rfl, by decide, rfl⟩

/-- C26 fails: operands that are inconsistent are composed, for instance an operator of input shape (4,) and the conversion from
cartesian to spherical coordinates, whose outputs have shapes (…, 2).  The composition has the input shape (3,), which is
rejected when it is called. -/
theorem C26_rejection_fails : ∃ op, compose [opOf { shapein := some [4], shapeout := some [4] }, opOf (toSpherical none none)] = some op ∧
    op.shapein = some [3] ∧ op.shapeout = some [4] ∧ (opOf (toSpherical none none)).reshapein [3] = some [2] ∧
    ∀ so, getShapes (some [3]) so [opOf { shapein := some [4], shapeout := some [4] }, opOf (toSpherical none none)] = none := by
  refine ⟨_, rfl, rfl, rfl, rfl, ?_⟩
  intro so
  unfold getShapes
  have h : scanOut so (some [3]) [opOf { shapein := some [4], shapeout := some [4] }, opOf (toSpherical none none)] =
      if agree so (some [4]) then some [some [4], some [2], some [3]] else none := rfl
  rw [h]
  split <;> [rfl; skip]
  rename_i heq
  split at heq
  · cases heq; rfl
  · cases heq

/-- A square operand with its own validation, such as a diagonal operator that is broadcast rightward. -/
def validating : Decl := { validatein := some (fun s => s.head? == some 2), square := true }

/-- C59 fails: the validation of an operand that is not the first one to be applied is not called. -/
theorem C59_composition_fails : ∃ op shapes, compose [opOf validating, opOf { square := true }] = some op ∧
    validateShapes op (some [3]) none = some (some [3], some [3]) ∧
    getShapes (some [3]) (some [3]) [opOf validating, opOf { square := true }] = some shapes ∧
    ¬ AllValid [opOf validating, opOf { square := true }] shapes ∧
    validateShapes (opOf validating) (some [3]) none = none := by
  refine ⟨_, [some [3], some [3], some [3]], rfl, rfl, rfl, ?_, rfl⟩
  rintro ⟨⟨h, _⟩, _⟩
  have := h [3] rfl
  revert this
  decide

end Verif.Shape
