import Verif.Shape.Operator

/- Property C60: the shapes of an operator that has been initialised are consistent. -/

namespace Verif.Shape

/-- What holds for the shapes and methods of any operator that has been initialised. -/
structure Initialised (op : Op) : Prop where
  kindin : op.kindin = .explicit ↔ op.shapein ≠ none
  kindout : op.kindout = .explicit ↔ op.shapeout ≠ none
  reshapein : ∀ t, op.shapeout = some t → ∀ s, op.reshapein s = some t
  reshapeout : ∀ t, op.shapein = some t → ∀ s, op.reshapeout s = some t
  validatein : ∀ t, op.shapein = some t → ∀ s, op.validatein s = true ↔ s = t
  validateout : ∀ t, op.shapeout = some t → ∀ s, op.validateout s = true ↔ s = t
  implicitin : op.kindin = .implicit → ∀ s, (op.reshapeout s).isSome = true
  implicitout : op.kindout = .implicit → ∀ s, (op.reshapein s).isSome = true
  unconstrainedin : op.kindin = .unconstrained → ∀ s, op.reshapeout s = none
  unconstrainedout : op.kindout = .unconstrained → ∀ s, op.reshapein s = none
  square : op.square = true → op.shapein = op.shapeout ∧ op.kindin = op.kindout ∧
    (op.shapein = none → ∀ s, op.reshapein s = some s ∧ op.reshapeout s = some s)

theorem kindOf_explicit {own : Option Shape} {f : Option (Shape → Shape)} {sq : Bool} :
    kindOf own f sq = .explicit ↔ own ≠ none := by
  cases own <;> cases f <;> cases sq <;> simp [kindOf]

theorem reshapeOf_some {t : Shape} {f : Option (Shape → Shape)} {sq : Bool} (s : Shape) :
    reshapeOf (some t) f sq s = some t := by simp [reshapeOf]

theorem validOf_some {t : Shape} {v : Option (Shape → Bool)} (s : Shape) : validOf (some t) v s = true ↔ s = t := by
  simp only [validOf, Option.isSome_some, if_true, defaultValid, beq_iff_eq]
  exact eq_comm

theorem reshapeOf_implicit {own : Option Shape} {f : Option (Shape → Shape)} {sq : Bool}
    (h : kindOf own f sq = .implicit) (s : Shape) : (reshapeOf own f sq s).isSome = true := by
  cases own <;> cases f <;> cases sq <;> simp [kindOf, reshapeOf] at h ⊢

theorem reshapeOf_unconstrained {own : Option Shape} {f : Option (Shape → Shape)} {sq : Bool}
    (h : kindOf own f sq = .unconstrained) (s : Shape) : reshapeOf own f sq s = none := by
  cases own <;> cases f <;> cases sq <;> simp [kindOf, reshapeOf] at h ⊢

theorem init_eq {d : Decl} {op : Op} (h : init d = some op) :
    ∃ sin sout, fill d.shapeout d.shapein d.reshapein d.validateout = some sout ∧
      fill d.shapein sout d.reshapeout d.validatein = some sin ∧
      checked d.validatein sin = true ∧ checked d.validateout sout = true ∧ op = finishInit d sin sout := by
  unfold init at h
  split at h
  · cases h
  · rename_i sout h1
    split at h
    · cases h
    · rename_i sin h2
      split at h
      · rename_i h3
        simp only [Bool.and_eq_true] at h3
        simp only [Option.some.injEq] at h
        exact ⟨sin, sout, h1, h2, h3.1, h3.2, h.symm⟩
      · cases h

/-- C60.  The methods and flags of an operator that has been initialised agree with its shapes: a known shape is the only one accepted
and the one returned by the methods reshapein and reshapeout; the methods of the sides that are declared implicit always return a shape;
the two shapes of a square operator are the same. -/
theorem C60_initialised (d : Decl) (op : Op) (h : init d = some op) : Initialised op := by
  obtain ⟨sin, sout, _, _, _, _, rfl⟩ := init_eq h
  constructor
  · exact kindOf_explicit
  · exact kindOf_explicit
  · intro t ht s
    simp only [finishInit] at ht ⊢
    rw [ht]; exact reshapeOf_some s
  · intro t ht s
    simp only [finishInit] at ht ⊢
    rw [ht]; exact reshapeOf_some s
  · intro t ht s
    simp only [finishInit] at ht ⊢
    rw [ht]; exact validOf_some s
  · intro t ht s
    simp only [finishInit] at ht ⊢
    rw [ht]; exact validOf_some s
  · exact fun hk s => reshapeOf_implicit hk s
  · exact fun hk s => reshapeOf_implicit hk s
  · exact fun hk s => reshapeOf_unconstrained hk s
  · exact fun hk s => reshapeOf_unconstrained hk s
  · intro hsq
    simp only [finishInit] at hsq ⊢
    rw [hsq]
    simp only [if_true]
    refine ⟨trivial, ?_, ?_⟩
    · cases sin.or sout <;> simp [kindOf]
    · intro hn s
      rw [hn]
      simp [reshapeOf]

theorem fill_some {own other : Option Shape} {f : Option (Shape → Shape)} {v : Option (Shape → Bool)} {r : Option Shape}
    (h : fill own other f v = some r) :
    (own ≠ none → r = own) ∧ (own = none → ∀ s, other = some s → r = f.map (fun f => f s)) ∧ (other = none → r = own) ∧
      (v = none → ∀ s d, other = some s → own = some d → ∀ g, f = some g → g s = d) := by
  unfold fill at h
  cases other with
  | none =>
    simp only [Option.some.injEq] at h
    subst h
    exact ⟨fun _ => rfl, fun _ s hs => by simp at hs, fun _ => rfl, fun _ s d hs => by simp at hs⟩
  | some s =>
    simp only at h
    cases own with
    | none =>
      simp only [Option.some.injEq] at h
      subst h
      refine ⟨by simp, ?_, by simp, by simp⟩
      intro _ s' hs
      cases hs
      cases f <;> rfl
    | some d =>
      simp only at h
      split at h
      · rename_i hacc
        simp only [Option.some.injEq] at h
        subst h
        refine ⟨fun _ => rfl, by simp, by simp, ?_⟩
        rintro rfl s' d' hs hd g rfl
        cases hs; cases hd
        simp only [accepts, defaultValid, reshaped, Option.getD_some, beq_iff_eq] at hacc
        exact hacc.symm
      · cases h

/-- C60 (partial).  The input and output shapes of an operator that has been initialised are related by its methods reshapein and
reshapeout, and they are equal for an operator that is declared square.  Missing: two shapes that are both specified for a class
that has its own validation (C60_validation_fails) or that is square (C60_square_fails), which can be inconsistent. -/
theorem C60_consistent_partial (d : Decl) (op : Op) (h : init d = some op) (a b : Shape) (ha : op.shapein = some a)
    (hb : op.shapeout = some b) :
    (∀ f, d.reshapein = some f → d.square = false → d.shapein ≠ none → (d.validateout = none ∨ d.shapeout = none) →
      f a = b) ∧
    (∀ g, d.reshapeout = some g → d.square = false → (d.validatein = none ∨ d.shapein = none) → g b = a) ∧
    (d.square = true → d.reshapein = none → d.reshapeout = none → (d.shapein = none ∨ d.shapeout = none) → a = b) := by
  obtain ⟨sin, sout, h1, h2, h3, h4, rfl⟩ := init_eq h
  obtain ⟨p1, p2, p3, p4⟩ := fill_some h1
  obtain ⟨q1, q2, q3, q4⟩ := fill_some h2
  have hin : d.shapein ≠ none → sin = d.shapein := q1
  -- the shapes before the squaring
  have hs : d.square = false → sin = some a ∧ sout = some b := by
    intro hsq
    simp only [finishInit] at ha hb
    cases hsin : sin with
    | none =>
      rw [hsin] at ha hb
      simp only [squareOf, hsq, Bool.false_eq_true, if_false] at ha
      cases ha
    | some x =>
      cases hsout : sout with
      | none =>
        rw [hsin, hsout] at hb
        simp only [squareOf, hsq, Bool.false_eq_true, if_false] at hb
        cases hb
      | some y =>
        rw [hsin, hsout] at ha hb
        cases hq : squareOf d (some x) (some y) with
        | true =>
          have hxy : x = y := by simpa [squareOf] using hq
          simp only [hq, if_true, Option.some_or, Option.some.injEq] at ha hb
          exact ⟨by rw [ha], by rw [← hxy, hb]⟩
        | false =>
          simp only [hq, Bool.false_eq_true, if_false] at ha hb
          exact ⟨ha, hb⟩
  refine ⟨?_, ?_, ?_⟩
  · intro f hf hsq hne hv
    obtain ⟨e1, e2⟩ := hs hsq
    have e3 : d.shapein = some a := by rw [← hin hne]; exact e1
    rcases hv with hv | hv
    · cases ho : d.shapeout with
      | none =>
        have := p2 ho a e3
        rw [hf, e2] at this
        simpa using this.symm
      | some b' =>
        have hb' := p1 (by rw [ho]; simp)
        rw [e2, ho] at hb'
        rw [p4 hv a b' e3 ho f hf]
        simpa using hb'.symm
    · have := p2 hv a e3
      rw [hf, e2] at this
      simpa using this.symm
  · intro g hg hsq hv
    obtain ⟨e1, e2⟩ := hs hsq
    rcases hv with hv | hv
    · cases ho : d.shapein with
      | none =>
        have := q2 ho b e2
        rw [hg, e1] at this
        simpa using this.symm
      | some a' =>
        have ha' := q1 (by rw [ho]; simp)
        rw [e1, ho] at ha'
        rw [q4 hv b a' e2 ho g hg]
        simpa using ha'.symm
    · have := q2 hv b e2
      rw [hg, e1] at this
      simpa using this.symm
  · intro hsq hf hg hone
    -- with the default methods at most one of the shapes is known
    have hor : sin = none ∨ sout = none := by
      rcases hone with hone | hone
      · left
        cases hso : sout with
        | none => rw [hso] at q3; rw [q3 rfl]; exact hone
        | some t => rw [q2 hone t hso, hg]; rfl
      · right
        cases hsi : d.shapein with
        | none => rw [p3 hsi]; exact hone
        | some t => rw [p2 hone t hsi, hf]; rfl
    have hsqo : squareOf d sin sout = true := by
      rcases hor with rfl | rfl
      · exact hsq
      · cases sin <;> exact hsq
    simp only [finishInit, hsqo, if_true] at ha hb
    rw [ha] at hb
    exact Option.some.inj hb

/-- The shapes of the conversion from cartesian to spherical coordinates (src/pyoperators/nonlinear.py:66-82). -/
def toSpherical (shapein shapeout : Option Shape) : Decl :=
  { shapein := shapein
    shapeout := shapeout
    reshapein := some (fun s => s.dropLast ++ [2])
    reshapeout := some (fun s => s.dropLast ++ [3])
    validatein := some (fun s => s.getLast? == some 3)
    validateout := some (fun s => s.getLast? == some 2) }

/-- Hypotheses of C60_initialised and C60_consistent_partial: only the input shape is specified. -/
example : ∃ op, init (toSpherical (some [5, 3]) none) = some op ∧ op.shapein = some [5, 3] ∧ op.shapeout = some [5, 2] ∧
    (toSpherical (some [5, 3]) none).shapeout = none ∧ (init (toSpherical (some [5, 4]) none)).isNone = true := by
  refine ⟨_, rfl, rfl, rfl, rfl, rfl⟩

/-- The same for a square operator. -/
example : ∃ op, init { shapein := some [5], square := true } = some op ∧ op.shapein = some [5] ∧
    op.shapeout = some [5] := ⟨_, rfl, rfl, rfl⟩

/-- C60 fails if both shapes are specified for an operator that has its own validation, such as
`Cartesian2SphericalOperator('zenith,azimuth', shapein=(5, 3), shapeout=(4, 2))`: the shape returned by reshapein is validated,
and not compared with the one specified. -/
theorem C60_validation_fails : ∃ op f, init (toSpherical (some [5, 3]) (some [4, 2])) = some op ∧
    (toSpherical (some [5, 3]) (some [4, 2])).reshapein = some f ∧
    op.shapein = some [5, 3] ∧ op.shapeout = some [4, 2] ∧ f [5, 3] ≠ [4, 2] := by
  refine ⟨_, _, rfl, rfl, rfl, rfl, by decide⟩

/-- C60 (partial).  The shapes of an operator that is not declared square, whether they are specified or inferred, have been accepted by the validations of its class. -/
theorem C60_validated_partial (d : Decl) (op : Op) (h : init d = some op) (hsq : d.square = false) :
    (∀ a v, op.shapein = some a → d.validatein = some v → v a = true) ∧ (∀ b v, op.shapeout = some b → d.validateout = some v → v b = true) := by
  obtain ⟨sin, sout, _, _, h3, h4, rfl⟩ := init_eq h
  have key : (finishInit d sin sout).shapein = sin ∧ (finishInit d sin sout).shapeout = sout := by
    cases sin <;> cases sout <;> simp [finishInit, squareOf, hsq]
  rw [key.1, key.2]
  refine ⟨?_, ?_⟩
  · rintro a v rfl hv
    simpa [checked, accepts, hv] using h3
  · rintro b v rfl hv
    simpa [checked, accepts, hv] using h4

/-- A validation that refuses the shape inferred from the input shape. -/
example : (init { shapein := some [3], reshapein := some (fun s => s ++ [2]), validateout := some fun s => s.getLast? == some 2 }).isSome = true ∧
    init { shapein := some [3], reshapein := some (fun s => s ++ [2]), validateout := some fun s => s.getLast? == some 3 } = none := ⟨rfl, rfl⟩

/-- C60 fails if different shapes are specified for an operator that is declared square: the flag is silently unset. -/
theorem C60_square_fails : ∃ op, init { shapein := some [3], shapeout := some [4], square := true } = some op ∧
    op.shapein = some [3] ∧ op.shapeout = some [4] ∧ op.square = false := ⟨_, rfl, rfl, rfl, rfl⟩

end Verif.Shape
