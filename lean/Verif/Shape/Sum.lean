import Verif.Shape.Chain

/- Property C58: the shapes accepted by a sum or a product of operators. -/

namespace Verif.Shape

theorem mergeShape_some {shapes : List (Option Shape)} {r : Option Shape} (h : mergeShape shapes = some r) :
    (∀ t, some t ∈ shapes → r = some t) ∧ (r = none ↔ ∀ s ∈ shapes, s = none) := by
  unfold mergeShape at h
  have hmem : ∀ t, some t ∈ shapes ↔ t ∈ shapes.filterMap id := by
    intro t; simp [List.mem_filterMap]
  cases hf : shapes.filterMap id with
  | nil =>
    rw [hf] at h
    simp only [Option.some.injEq] at h
    subst h
    refine ⟨fun t ht => ?_, ?_⟩
    · rw [hmem, hf] at ht; cases ht
    · simp only [true_iff]
      intro s hs
      cases s with
      | none => rfl
      | some t => rw [hmem, hf] at hs; cases hs
  | cons s rest =>
    rw [hf] at h
    simp only at h
    split at h
    · cases h
    · rename_i hany
      simp only [Option.some.injEq] at h
      subst h
      simp only [ne_eq, decide_not, List.any_eq_true, Bool.not_eq_true', decide_eq_false_iff_not, not_exists, not_and,
        not_not] at hany
      have hall : ∀ t, some t ∈ shapes → t = s := by
        intro t ht
        rw [hmem, hf] at ht
        rcases List.mem_cons.mp ht with rfl | ht
        · rfl
        · exact hany t ht
      refine ⟨fun t ht => by rw [hall t ht], ?_⟩
      constructor
      · intro h; cases h
      · intro hn
        have : some s ∈ shapes := by rw [hmem, hf]; simp
        have := hn _ this
        cases this

theorem sum_eq {ops : List Op} {op : Op} (h : sum ops = some op) : ∃ o1 sin sout, ops.head? = some o1 ∧
    mergeShape (ops.map Op.shapein) = some sin ∧ mergeShape (ops.map Op.shapeout) = some sout ∧
    init
      { shapein := sin
        shapeout := sout
        reshapein := sumReshape (ops.map (fun o => (o.kindout, o.reshapein)))
        reshapeout := sumReshape (ops.map (fun o => (o.kindin, o.reshapeout)))
        validatein := some o1.validatein
        validateout := some o1.validateout
        square := ops.any (fun o => o.square) } = some op := by
  unfold sum at h
  split at h
  · rename_i o1 sin sout h1 h2 h3
    exact ⟨o1, sin, sout, h1, h2, h3, h⟩
  · cases h

theorem sumReshape_implicit {ops : List Op} {o : Op} (ho : o ∈ ops) (hk : o.kindout = .implicit)
    (hne : ∀ o' ∈ ops, o'.kindout ≠ .explicit) (hs : ∀ o' ∈ ops, o'.kindout = .implicit → o'.reshapein = o.reshapein) :
    sumReshape (ops.map (fun o => (o.kindout, o.reshapein))) = some (fun s => (o.reshapein s).getD s) := by
  unfold sumReshape
  have h1 : ((ops.map (fun o => (o.kindout, o.reshapein))).any (fun k => k.1 = .explicit)) = false := by
    rw [List.any_eq_false]
    intro k hk'
    obtain ⟨o', ho', rfl⟩ := List.mem_map.mp hk'
    simpa using hne o' ho'
  rw [h1]
  simp only [Bool.false_eq_true, if_false]
  cases hf : (ops.map (fun o => (o.kindout, o.reshapein))).find? (fun k => k.1 = .implicit) with
  | none =>
    rw [List.find?_eq_none] at hf
    have := hf (o.kindout, o.reshapein) (List.mem_map.mpr ⟨o, ho, rfl⟩)
    simp [hk] at this
  | some k =>
    have hm := List.mem_of_find?_eq_some hf
    have hp := List.find?_some hf
    obtain ⟨o', ho', rfl⟩ := List.mem_map.mp hm
    simp only [decide_eq_true_eq] at hp
    simp only [Option.map_some, hs o' ho' hp]

/-- The shapes and the method reshapein of an operator at the end of its initialisation. -/
theorem finish_shapes (d : Decl) (sin sout : Option Shape) :
    (∀ t, sout = some t → (finishInit d sin sout).shapeout = some t) ∧
    (∀ s, sin = some s → (finishInit d sin sout).shapein = some s) ∧
    (sin = none → sout = none → (finishInit d sin sout).shapein = none ∧ (finishInit d sin sout).shapeout = none ∧
      (finishInit d sin sout).square = d.square) := by
  refine ⟨?_, ?_, ?_⟩
  · rintro t rfl
    simp only [finishInit]
    cases hq : squareOf d sin (some t) with
    | false => simp
    | true =>
      cases sin with
      | none => simp
      | some s =>
        have : s = t := by simpa [squareOf] using hq
        simp [this]
  · rintro s rfl
    simp only [finishInit]
    cases hq : squareOf d (some s) sout <;> simp
  · rintro rfl rfl
    simp [finishInit, squareOf]

/-- What an operand says about the input shape x, if the output shape is b. -/
structure Accepts (o : Op) (x : Shape) (b : Option Shape) : Prop where
  input : o.validatein x = true
  output : ∀ t, o.reshapein x = some t → b = some t
  valid : ∀ t, b = some t → o.validateout t = true

/-- C58 (partial).  If a sum or a product of operators accepts an input shape, all its operands accept it, and those that know
their output shape have the output shape of the sum.  Missing: operands that have their own validations (C58_validation_fails),
implicit operands whose methods reshapein differ (C58_reshape_fails, C58_square_fails) or are mixed with explicit ones
(C58_mixed_fails). -/
theorem C58_accepted_partial (ops : List Op) (op : Op) (h : sum ops = some op)
    (hd : ∀ o ∈ ops, ∃ d, init d = some o ∧ d.validatein = none ∧ d.validateout = none)
    (hsame : ∀ o ∈ ops, ∀ o' ∈ ops, o.kindout = .implicit → o'.kindout ≠ .explicit ∧
      (o'.kindout = .implicit → o'.reshapein = o.reshapein))
    (x : Shape) (y a b : Option Shape) (hv : validateShapes op (some x) y = some (a, b)) :
    a = some x ∧ (y = none ∨ b = y) ∧ ∀ o ∈ ops, Accepts o x b := by
  obtain ⟨o1, sin0, sout0, e1, e2, e3, e4⟩ := sum_eq h
  have I := C60_initialised _ op e4
  have hI : ∀ o ∈ ops, Initialised o := fun o ho => by
    obtain ⟨d, hd, _⟩ := hd o ho; exact C60_initialised d o hd
  obtain ⟨m1, m2⟩ := mergeShape_some e2
  obtain ⟨n1, n2⟩ := mergeShape_some e3
  obtain ⟨sin, sout, f1, f2, f3, f4, hop⟩ := init_eq e4
  obtain ⟨p1, p2, p3, _⟩ := fill_some f1
  obtain ⟨q1, q2, q3, _⟩ := fill_some f2
  simp only at p1 p2 p3 q1 q2 q3
  -- the validation
  have hvalid : op.validatein x = true ∧ (∀ t, op.reshapein x = some t → b = some t) ∧ a = some x ∧ (y = none ∨ b = y) ∧
      (op.shapein = none ∨ op.shapein = some x) := by
    unfold validateShapes at hv
    split at hv
    · cases hv
    · rename_i so hv1
      split at hv
      · cases hv
      · rename_i si hv2
        split at hv
        · rename_i hag
          simp only [Option.some.injEq, Prod.mk.injEq, Option.some_or] at hv
          obtain ⟨rfl, rfl⟩ := hv
          simp only [Bool.and_eq_true] at hag
          obtain ⟨hag1, hag2⟩ := hag
          unfold infer at hv1
          split at hv1
          · rename_i hval
            have hval : op.validatein x = true := hval
            refine ⟨hval, ?_, rfl, ?_, ?_⟩
            · intro t ht
              have hso : so = some t := by
                cases hk : op.kindout with
                | explicit =>
                  rw [hk] at hv1
                  simp only [Option.some.injEq] at hv1
                  obtain ⟨u, hu⟩ := Option.ne_none_iff_exists'.mp (I.kindout.mp hk)
                  rw [I.reshapein u hu x] at ht
                  rw [← hv1, hu, ← ht]
                | implicit =>
                  rw [hk] at hv1
                  simp only [inferImplicit, Option.bind_some, ht] at hv1
                  split at hv1
                  · simpa using hv1.symm
                  · cases hv1
                | unconstrained => rw [I.unconstrainedout hk x] at ht; cases ht
              rw [hso, agree_comm, agree_some] at hag2
              rw [hso]
              rcases hag2 with rfl | rfl <;> rfl
            · cases y with
              | none => exact Or.inl rfl
              | some y => exact Or.inr rfl
            · cases hsi : op.shapein with
              | none => exact Or.inl rfl
              | some u => exact Or.inr (by rw [(I.validatein u hsi x).mp hval])
          · cases hv1
        · cases hv
  obtain ⟨v1, v2, v3, v4, v5⟩ := hvalid
  refine ⟨v3, v4, ?_⟩
  intro o ho
  have hin : ∀ s, o.shapein = some s → s = x := by
    intro s hs
    have h1 : sin0 = some s := m1 s (List.mem_map.mpr ⟨o, ho, hs⟩)
    have h2 : sin = some s := by rw [q1 (by rw [h1]; simp), h1]
    have h3 := (finish_shapes
      { shapein := sin0, shapeout := sout0,
        reshapein := sumReshape (ops.map (fun o => (o.kindout, o.reshapein))),
        reshapeout := sumReshape (ops.map (fun o => (o.kindin, o.reshapeout))),
        validatein := some o1.validatein, validateout := some o1.validateout,
        square := ops.any (fun o => o.square) } sin sout).2.1 s h2
    rw [← hop] at h3
    rcases v5 with q | q
    · rw [q] at h3; cases h3
    · rw [q] at h3; exact (Option.some.inj h3).symm
  have hout : ∀ t, o.shapeout = some t → b = some t := by
    intro t ht
    have h1 : sout0 = some t := n1 t (List.mem_map.mpr ⟨o, ho, ht⟩)
    have h2 : sout = some t := by rw [p1 (by rw [h1]; simp), h1]
    have h3 := (finish_shapes
      { shapein := sin0, shapeout := sout0,
        reshapein := sumReshape (ops.map (fun o => (o.kindout, o.reshapein))),
        reshapeout := sumReshape (ops.map (fun o => (o.kindin, o.reshapeout))),
        validatein := some o1.validatein, validateout := some o1.validateout,
        square := ops.any (fun o => o.square) } sin sout).1 t h2
    rw [← hop] at h3
    exact v2 t (I.reshapein t h3 x)
  obtain ⟨d, hd1, hd2, hd3⟩ := hd o ho
  have hvi : o.shapein = none → ∀ s, o.validatein s = true := by
    intro hn s
    obtain ⟨si, sou, _, _, _, _, rfl⟩ := init_eq hd1
    simp only [finishInit] at hn ⊢
    rw [hn, hd2]; rfl
  have hvo : o.shapeout = none → ∀ s, o.validateout s = true := by
    intro hn s
    obtain ⟨si, sou, _, _, _, _, rfl⟩ := init_eq hd1
    simp only [finishInit] at hn ⊢
    rw [hn, hd2, hd3]
    split <;> rfl
  constructor
  · cases hs : o.shapein with
    | none => exact hvi hs x
    | some s => exact ((hI o ho).validatein s hs x).mpr (hin s hs).symm
  · intro t ht
    cases hk : o.kindout with
    | explicit =>
      obtain ⟨u, hu⟩ := Option.ne_none_iff_exists'.mp ((hI o ho).kindout.mp hk)
      rw [(hI o ho).reshapein u hu x] at ht
      cases ht
      exact hout t hu
    | unconstrained => rw [(hI o ho).unconstrainedout hk x] at ht; cases ht
    | implicit =>
      have hne : ∀ o' ∈ ops, o'.kindout ≠ .explicit := fun o' ho' => (hsame o ho o' ho' hk).1
      have hsr := sumReshape_implicit ho hk hne (fun o' ho' => (hsame o ho o' ho' hk).2)
      have hs0 : sout0 = none := by
        rw [n2]
        intro s hs
        obtain ⟨o', ho', rfl⟩ := List.mem_map.mp hs
        by_contra hc
        exact hne o' ho' ((hI o' ho').kindout.mpr hc)
      rw [hsr] at p2
      apply v2
      cases hsi : sin0 with
      | some s =>
        have h1 : sout = some ((o.reshapein s).getD s) := p2 hs0 s hsi
        have hsin : sin = some s := by rw [q1 (by rw [hsi]; simp), hsi]
        have h4 := finish_shapes
          { shapein := sin0, shapeout := sout0,
            reshapein := sumReshape (ops.map (fun o => (o.kindout, o.reshapein))),
            reshapeout := sumReshape (ops.map (fun o => (o.kindin, o.reshapeout))),
            validatein := some o1.validatein, validateout := some o1.validateout,
            square := ops.any (fun o => o.square) } sin sout
        rw [← hop] at h4
        have h5 := h4.1 _ h1
        have h6 := h4.2.1 _ hsin
        have hxs : s = x := by
          rcases v5 with q | q
          · rw [q] at h6; cases h6
          · rw [q] at h6; exact (Option.some.inj h6).symm
        subst hxs
        rw [I.reshapein _ h5, ht]; rfl
      | none =>
        have h1 : sout = none := by rw [p3 hsi, hs0]
        have h2 : sin = none := by rw [q3 h1, hsi]
        subst h1; subst h2
        rw [hop]
        simp only [finishInit, squareOf, Option.or_none, ite_self, reshapeOf, Option.isSome_none, Bool.false_eq_true,
          if_false, hsr]
        split
        · rename_i hsq
          rw [List.any_eq_true] at hsq
          obtain ⟨o', ho', hsq⟩ := hsq
          have hsh : o'.shapeout = none := by
            by_contra hc
            exact hne o' ho' ((hI o' ho').kindout.mpr hc)
          obtain ⟨g1, g2, g3⟩ := (hI o' ho').square hsq
          have g4 := (g3 (g1.trans hsh) x).1
          have hk' : o'.kindout = .implicit := by
            cases hk' : o'.kindout with
            | explicit => exact absurd hk' (hne o' ho')
            | implicit => rfl
            | unconstrained => rw [(hI o' ho').unconstrainedout hk' x] at g4; cases g4
          rw [(hsame o ho o' ho' hk).2 hk', ht] at g4
          exact g4.symm
        · simp [ht]
  · intro t ht
    cases hs : o.shapeout with
    | none => exact hvo hs t
    | some u =>
      have := hout u hs
      rw [ht] at this
      exact ((hI o ho).validateout u hs t).mpr (Option.some.inj this)

/-- Hypotheses of C58_accepted_partial: two implicit operands and one that is unconstrained. -/
example : ∃ op, sum [opOf adding, opOf { shapein := some [3] }, opOf adding] = some op ∧
    (∀ o ∈ [opOf adding, opOf { shapein := some [3] }, opOf adding],
      ∃ d, init d = some o ∧ d.validatein = none ∧ d.validateout = none) ∧
    (∀ o ∈ [opOf adding, opOf { shapein := some [3] }, opOf adding],
      ∀ o' ∈ [opOf adding, opOf { shapein := some [3] }, opOf adding], o.kindout = .implicit → o'.kindout ≠ .explicit ∧
        (o'.kindout = .implicit → o'.reshapein = o.reshapein)) ∧
    validateShapes op (some [3]) none = some (some [3], some [3, 2]) := by
  refine ⟨_, rfl, ?_, ?_, rfl⟩
  · intro o ho
    simp only [List.mem_cons, List.not_mem_nil, or_false] at ho
    rcases ho with rfl | rfl | rfl
    · exact ⟨adding, rfl, rfl, rfl⟩
    · exact ⟨{ shapein := some [3] }, rfl, rfl, rfl⟩
    · exact ⟨adding, rfl, rfl, rfl⟩
  · intro o ho o' ho' h
    simp only [List.mem_cons, List.not_mem_nil, or_false] at ho ho'
    rcases ho with rfl | rfl | rfl
    · rcases ho' with rfl | rfl | rfl
      · exact ⟨by decide, fun _ => rfl⟩
      · exact ⟨by decide, fun h => absurd h (by decide)⟩
      · exact ⟨by decide, fun _ => rfl⟩
    · exact absurd h (by decide)
    · rcases ho' with rfl | rfl | rfl
      · exact ⟨by decide, fun _ => rfl⟩
      · exact ⟨by decide, fun h => absurd h (by decide)⟩
      · exact ⟨by decide, fun _ => rfl⟩

/-- C58 fails: only the validation of the first operand is called. -/
theorem C58_validation_fails : ∃ op, sum [opOf { square := true }, opOf validating] = some op ∧
    validateShapes op (some [3]) none = some (some [3], some [3]) ∧
    validateShapes (opOf validating) (some [3]) none = none ∧
    ∃ op', sum [opOf validating, opOf { square := true }] = some op' ∧ validateShapes op' (some [3]) none = none :=
  ⟨_, rfl, rfl, rfl, _, rfl, rfl⟩

/-- C58 fails: the output shape is the one of the first implicit operand. -/
theorem C58_reshape_fails : ∃ op, sum [opOf adding, opOf reversing] = some op ∧
    validateShapes op (some [3]) none = some (some [3], some [3, 2]) ∧
    validateShapes (opOf reversing) (some [3]) none = some (some [3], some [3]) := ⟨_, rfl, rfl, rfl⟩

/-- C58 fails: a sum is square if any of its operands is. -/
theorem C58_square_fails : ∃ op, sum [opOf adding, opOf { square := true }] = some op ∧ op.square = true ∧
    validateShapes op (some [3]) none = some (some [3], some [3]) ∧
    validateShapes (opOf adding) (some [3]) none = some (some [3], some [3, 2]) := ⟨_, rfl, rfl, rfl, rfl⟩

/-- C58 fails: an implicit operand is ignored if there is an explicit one. -/
theorem C58_mixed_fails : ∃ op, sum [opOf { shapein := some [3], shapeout := some [3] }, opOf adding] = some op ∧
    validateShapes op (some [3]) none = some (some [3], some [3]) ∧
    validateShapes (opOf adding) (some [3]) none = some (some [3], some [3, 2]) := ⟨_, rfl, rfl, rfl⟩

end Verif.Shape
