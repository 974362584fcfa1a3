import Verif.Shape.Model
import Mathlib.Data.List.GetD
import Mathlib.Data.List.Forall2
import Mathlib.Tactic.Tauto

/- Properties C20 and C21: the broadcast of shapes, the merging of partially known tuples. -/

namespace Verif.Shape

variable {α β : Type}

/-! ### Broadcasting -/

/-- The dimension number k of a shape, counted from the end; a missing dimension counts for 1. -/
def dimAt (s : Shape) (k : Nat) : Nat := s.reverse.getD k 1

/-- The broadcasting rule of NumPy: the result has as many dimensions as the shape that has the most, and its dimensions, counted
from the end, are the only ones that the dimensions of the shapes that are not equal to 1 are equal to. -/
structure Broadcasts (shapes : List Shape) (out : Shape) : Prop where
  le : ∀ s ∈ shapes, s.length ≤ out.length
  att : ∃ s ∈ shapes, s.length = out.length
  fits : ∀ s ∈ shapes, ∀ k, dimAt s k = 1 ∨ dimAt s k = dimAt out k
  need : ∀ k, dimAt out k = 1 ∨ ∃ s ∈ shapes, dimAt s k = dimAt out k

theorem mapOpt_some {f : α → Option β} {l : List α} {r : List β} :
    mapOpt f l = some r ↔ List.Forall₂ (fun a b => f a = some b) l r := by
  induction l generalizing r with
  | nil =>
    simp only [mapOpt, Option.some.injEq, List.forall₂_nil_left_iff]
    exact eq_comm
  | cons a as ih =>
    simp only [mapOpt]
    cases h1 : f a with
    | none =>
      simp only [reduceCtorEq, false_iff]
      intro h
      cases h with
      | cons p q => rw [h1] at p; cases p
    | some b =>
      cases h2 : mapOpt f as with
      | none =>
        simp only [reduceCtorEq, false_iff]
        intro h
        cases h with
        | cons p q => rw [ih.mpr q] at h2; cases h2
      | some bs =>
        simp only [Option.some.injEq]
        constructor
        · rintro rfl
          exact List.Forall₂.cons h1 (ih.mp h2)
        · intro h
          cases h with
          | cons p q =>
            rw [h1] at p
            rw [ih.mpr q] at h2
            cases p; cases h2; rfl

theorem foldl_max_le (l : List Nat) (a : Nat) : a ≤ l.foldl max a ∧ ∀ x ∈ l, x ≤ l.foldl max a := by
  induction l generalizing a with
  | nil => simp
  | cons y ys ih =>
    obtain ⟨h1, h2⟩ := ih (max a y)
    refine ⟨by simp only [List.foldl_cons]; omega, ?_⟩
    intro x hx
    rcases List.mem_cons.mp hx with rfl | hx
    · simp only [List.foldl_cons]; omega
    · exact h2 x hx

theorem foldl_max_mem (l : List Nat) (a : Nat) : l.foldl max a = a ∨ l.foldl max a ∈ l := by
  induction l generalizing a with
  | nil => simp
  | cons y ys ih =>
    simp only [List.foldl_cons]
    rcases ih (max a y) with h | h
    · rw [h]
      rcases Nat.le_total a y with q | q
      · right; simp [q]
      · left; omega
    · right; exact List.mem_cons_of_mem _ h

theorem ndim_le {shapes : List Shape} {s : Shape} (h : s ∈ shapes) : s.length ≤ ndim shapes :=
  (foldl_max_le _ 0).2 _ (List.mem_map.mpr ⟨s, h, rfl⟩)

theorem ndim_mem {shapes : List Shape} (h : shapes ≠ []) : ∃ s ∈ shapes, s.length = ndim shapes := by
  rcases foldl_max_mem (shapes.map List.length) 0 with q | q
  · obtain ⟨s, hs⟩ := List.exists_mem_of_ne_nil _ h
    refine ⟨s, hs, ?_⟩
    have := ndim_le hs
    unfold ndim at *
    omega
  · obtain ⟨s, hs, he⟩ := List.mem_map.mp q
    exact ⟨s, hs, he⟩

theorem pad_getD (n : Nat) (s : Shape) (h : s.length ≤ n) (k : Nat) (hk : k < n) :
    (pad n s).getD (n - 1 - k) 1 = dimAt s k := by
  unfold pad dimAt
  by_cases hks : k < s.length
  · have e1 : n - 1 - k = (List.replicate (n - s.length) 1).length + (s.length - 1 - k) := by simp; omega
    rw [e1, List.getD_append_right _ _ _ _ (by omega)]
    have e2 : (List.replicate (n - s.length) 1).length + (s.length - 1 - k) - (List.replicate (n - s.length) 1).length =
      s.length - 1 - k := by omega
    rw [e2, List.getD_eq_getElem _ _ (by omega), List.getD_eq_getElem _ _ (by simpa using hks), List.getElem_reverse]
  · rw [List.getD_append _ _ _ _ (by simp; omega), List.getD_eq_getElem _ _ (by simp; omega), List.getElem_replicate,
      List.getD_eq_default _ _ (by simpa using hks)]

theorem common_some {dims : List Nat} {d : Nat} :
    common dims = some d ↔ (∀ e ∈ dims, e = 1 ∨ e = d) ∧ (d = 1 ∨ d ∈ dims) := by
  unfold common
  cases h : dims.filter (fun d => d ≠ 1) with
  | nil =>
    have h1 : ∀ e ∈ dims, e = 1 := by
      intro e he
      by_contra hne
      have : e ∈ dims.filter (fun d => d ≠ 1) := List.mem_filter.mpr ⟨he, by simpa using hne⟩
      rw [h] at this; cases this
    simp only [Option.some.injEq]
    constructor
    · rintro rfl
      exact ⟨fun e he => Or.inl (h1 e he), Or.inl rfl⟩
    · rintro ⟨_, q | q⟩
      · exact q.symm
      · exact (h1 d q).symm
  | cons a as =>
    have hmem : ∀ e, e ∈ a :: as ↔ e ∈ dims ∧ e ≠ 1 := by
      intro e; rw [← h, List.mem_filter]; simp
    simp only
    have ha := (hmem a).mp (by simp)
    by_cases hany : (a :: as).any (fun e => e ≠ a) = true
    · rw [if_pos hany]
      simp only [reduceCtorEq, false_iff]
      rintro ⟨q1, q2⟩
      rw [List.any_eq_true] at hany
      obtain ⟨e, he, hne⟩ := hany
      simp only [ne_eq, decide_not, Bool.not_eq_true', decide_eq_false_iff_not] at hne
      obtain ⟨he1, he2⟩ := (hmem e).mp he
      rcases q1 e he1 with p | p
      · exact he2 p
      · rcases q1 a ha.1 with p' | p'
        · exact ha.2 p'
        · exact hne (p.trans p'.symm)
    · rw [if_neg hany]
      have hall : ∀ e ∈ a :: as, e = a := by
        intro e he
        by_contra hne
        exact hany (List.any_eq_true.mpr ⟨e, he, by simpa using hne⟩)
      simp only [Option.some.injEq]
      constructor
      · rintro rfl
        refine ⟨fun e he => ?_, Or.inr ha.1⟩
        by_cases h1 : e = 1
        · exact Or.inl h1
        · exact Or.inr (hall e ((hmem e).mpr ⟨he, h1⟩))
      · rintro ⟨q1, q2⟩
        rcases q1 a ha.1 with p | p
        · exact absurd p ha.2
        · exact p

/-- C20.  `broadcast_shapes` returns the shape given by the broadcasting rule of NumPy, and there is only one. -/
theorem C20_broadcast (shapes : List Shape) (out : Shape) :
    broadcastShapes shapes = some out ↔ Broadcasts shapes out := by
  unfold broadcastShapes
  by_cases hs : shapes = []
  · rw [if_pos hs]
    simp only [reduceCtorEq, false_iff]
    intro h
    obtain ⟨s, h1, _⟩ := h.att
    rw [hs] at h1; cases h1
  rw [if_neg hs]
  simp only
  rw [mapOpt_some, List.forall₂_iff_get]
  have hcol : ∀ k, k < ndim shapes →
      (shapes.map (pad (ndim shapes))).map (fun s => s.getD (ndim shapes - 1 - k) 1) = shapes.map (fun s => dimAt s k) := by
    intro k hk
    rw [List.map_map]
    apply List.map_congr_left
    intro s hs
    exact pad_getD _ s (ndim_le hs) k hk
  have hout : ∀ k, k < out.length → out.getD (out.length - 1 - k) 1 = dimAt out k := by
    intro k hk
    unfold dimAt
    rw [List.getD_eq_getElem _ _ (by omega), List.getD_eq_getElem _ _ (by simpa using hk), List.getElem_reverse]
  constructor
  · rintro ⟨hlen, hall⟩
    rw [List.length_range] at hlen
    have key : ∀ k, k < ndim shapes → common (shapes.map (fun s => dimAt s k)) = some (dimAt out k) := by
      intro k hk
      have := hall (ndim shapes - 1 - k) (by rw [List.length_range]; omega) (by omega)
      simp only [List.get_eq_getElem, List.getElem_range] at this
      rw [hcol k hk] at this
      rw [this, ← hout k (by omega), List.getD_eq_getElem _ _ (by omega)]
      simp only [hlen]
    have hbig : ∀ s : Shape, s.length ≤ ndim shapes → ∀ k, ndim shapes ≤ k → dimAt s k = 1 := by
      intro s h1 k h2
      unfold dimAt
      rw [List.getD_eq_default _ _ (by simp; omega)]
    refine ⟨fun s h => by rw [← hlen]; exact ndim_le h, by rw [← hlen]; exact ndim_mem hs, ?_, ?_⟩
    · intro s h k
      by_cases hk : k < ndim shapes
      · exact (common_some.mp (key k hk)).1 _ (List.mem_map.mpr ⟨s, h, rfl⟩)
      · left; exact hbig s (ndim_le h) k (by omega)
    · intro k
      by_cases hk : k < ndim shapes
      · rcases (common_some.mp (key k hk)).2 with q | q
        · exact Or.inl q
        · obtain ⟨s, h1, h2⟩ := List.mem_map.mp q
          exact Or.inr ⟨s, h1, h2⟩
      · left; exact hbig out (by omega) k (by omega)
  · intro H
    have hlen : ndim shapes = out.length := by
      obtain ⟨s, h1, h2⟩ := ndim_mem hs
      obtain ⟨t, h3, h4⟩ := H.att
      have := H.le s h1
      have := ndim_le h3
      omega
    refine ⟨by rw [List.length_range]; exact hlen, ?_⟩
    intro i h1 h2
    rw [List.length_range] at h1
    simp only [List.get_eq_getElem, List.getElem_range]
    have hk : ndim shapes - 1 - i < ndim shapes := by omega
    have e := hcol _ hk
    rw [show ndim shapes - 1 - (ndim shapes - 1 - i) = i by omega] at e
    rw [e, common_some]
    have e2 := hout (ndim shapes - 1 - i) (by omega)
    rw [show out.length - 1 - (ndim shapes - 1 - i) = i by omega, List.getD_eq_getElem _ _ h2] at e2
    rw [e2]
    refine ⟨?_, ?_⟩
    · intro d hd
      obtain ⟨s, h3, rfl⟩ := List.mem_map.mp hd
      exact H.fits s h3 _
    · rcases H.need (ndim shapes - 1 - i) with q | ⟨s, h3, h4⟩
      · exact Or.inl q
      · exact Or.inr (List.mem_map.mpr ⟨s, h3, h4⟩)

/-- The dimensions of a shape determine it, given their number. -/
theorem ext_dimAt {s t : Shape} (hl : s.length = t.length) (h : ∀ k, dimAt s k = dimAt t k) : s = t := by
  rw [← List.reverse_inj]
  apply List.ext_getElem (by simpa using hl)
  intro k h1 h2
  have := h k
  unfold dimAt at this
  rwa [List.getD_eq_getElem _ _ h1, List.getD_eq_getElem _ _ h2] at this

/-- A shape can be made from its dimensions. -/
theorem exists_shape (n : Nat) (f : Nat → Nat) (hf : ∀ k, n ≤ k → f k = 1) :
    ∃ out : Shape, out.length = n ∧ ∀ k, dimAt out k = f k := by
  refine ⟨((List.range n).map f).reverse, by simp, ?_⟩
  intro k
  unfold dimAt
  rw [List.reverse_reverse]
  by_cases hk : k < n
  · rw [List.getD_eq_getElem _ _ (by simpa using hk)]; simp
  · rw [List.getD_eq_default _ _ (by simp; omega), hf k (by omega)]

/-- C20.  `broadcast_shapes` fails if and only if no shape is given or two dimensions differ, none of them being equal to 1. -/
theorem C20_failure (shapes : List Shape) :
    broadcastShapes shapes = none ↔
      shapes = [] ∨ ∃ s ∈ shapes, ∃ t ∈ shapes, ∃ k, dimAt s k ≠ 1 ∧ dimAt t k ≠ 1 ∧ dimAt s k ≠ dimAt t k := by
  constructor
  · intro h
    by_cases hs : shapes = []
    · exact Or.inl hs
    right
    by_contra hno
    have hno : ∀ s ∈ shapes, ∀ t ∈ shapes, ∀ k, dimAt s k ≠ 1 → dimAt t k ≠ 1 → dimAt s k = dimAt t k := by
      intro s h1 t h2 k h3 h4
      by_contra hne
      exact hno ⟨s, h1, t, h2, k, h3, h4, hne⟩
    have hd : ∀ k, ∃ d, (∀ s ∈ shapes, dimAt s k = 1 ∨ dimAt s k = d) ∧ (d = 1 ∨ ∃ s ∈ shapes, dimAt s k = d) ∧
        (ndim shapes ≤ k → d = 1) := by
      intro k
      by_cases hk : ∃ s ∈ shapes, dimAt s k ≠ 1
      · obtain ⟨s, h1, h2⟩ := hk
        refine ⟨dimAt s k, ?_, Or.inr ⟨s, h1, rfl⟩, ?_⟩
        · intro t ht
          by_cases q : dimAt t k = 1
          · exact Or.inl q
          · exact Or.inr (hno t ht s h1 k q h2)
        · intro hn
          unfold dimAt
          rw [List.getD_eq_default _ _ (by have := ndim_le h1; simp; omega)]
      · refine ⟨1, ?_, Or.inl rfl, fun _ => rfl⟩
        intro t ht
        left
        by_contra q
        exact hk ⟨t, ht, q⟩
    choose f hf1 hf2 hf3 using hd
    obtain ⟨out, ho1, ho2⟩ := exists_shape (ndim shapes) f (fun k hk => hf3 k hk)
    have : broadcastShapes shapes = some out := by
      rw [C20_broadcast]
      refine ⟨fun s hs => by rw [ho1]; exact ndim_le hs, by rw [ho1]; exact ndim_mem hs, ?_, ?_⟩
      · intro s h1 k; rw [ho2]; exact hf1 k s h1
      · intro k; rw [ho2]; exact hf2 k
    rw [h] at this; cases this
  · intro h
    cases hb : broadcastShapes shapes with
    | none => rfl
    | some out =>
      rw [C20_broadcast] at hb
      rcases h with h | ⟨s, h1, t, h2, k, h3, h4, h5⟩
      · obtain ⟨s, h1, _⟩ := hb.att
        rw [h] at h1; cases h1
      · rcases hb.fits s h1 k with q | q
        · exact absurd q h3
        · rcases hb.fits t h2 k with q' | q'
          · exact absurd q' h4
          · exact absurd (q.trans q'.symm) h5

theorem eq_of_iff {a b : Option α} (h : ∀ x, a = some x ↔ b = some x) : a = b := by
  cases a with
  | none =>
    cases b with
    | none => rfl
    | some y => exact absurd ((h y).mpr rfl) (by simp)
  | some x => exact ((h x).mp rfl).symm

/-- C20.  The result does not depend on the order of the shapes, nor on their repetition. -/
theorem C20_order (shapes shapes' : List Shape) (h : ∀ s, s ∈ shapes ↔ s ∈ shapes') :
    broadcastShapes shapes = broadcastShapes shapes' := by
  apply eq_of_iff
  intro out
  rw [C20_broadcast, C20_broadcast]
  constructor
  · intro H
    exact ⟨fun s hs => H.le s ((h s).mpr hs), by obtain ⟨s, h1, h2⟩ := H.att; exact ⟨s, (h s).mp h1, h2⟩,
      fun s hs => H.fits s ((h s).mpr hs), fun k => (H.need k).imp_right (fun ⟨s, h1, h2⟩ => ⟨s, (h s).mp h1, h2⟩)⟩
  · intro H
    exact ⟨fun s hs => H.le s ((h s).mp hs), by obtain ⟨s, h1, h2⟩ := H.att; exact ⟨s, (h s).mpr h1, h2⟩,
      fun s hs => H.fits s ((h s).mp hs), fun k => (H.need k).imp_right (fun ⟨s, h1, h2⟩ => ⟨s, (h s).mpr h1, h2⟩)⟩

/-- C20.  The shapes can be broadcast by groups. -/
theorem C20_grouping (g1 g2 : List Shape) (h1 : g1 ≠ []) (h2 : g2 ≠ []) :
    broadcastShapes (g1 ++ g2) =
      (broadcastShapes g1).bind (fun a => (broadcastShapes g2).bind (fun b => broadcastShapes [a, b])) := by
  cases e1 : broadcastShapes g1 with
  | none =>
    simp only [Option.bind_none]
    rw [C20_failure] at e1 ⊢
    rcases e1 with e1 | ⟨s, q1, t, q2, k, q3⟩
    · exact absurd e1 h1
    · exact Or.inr ⟨s, by simp [q1], t, by simp [q2], k, q3⟩
  | some a =>
    cases e2 : broadcastShapes g2 with
    | none =>
      simp only [Option.bind_some, Option.bind_none]
      rw [C20_failure] at e2 ⊢
      rcases e2 with e2 | ⟨s, q1, t, q2, k, q3⟩
      · exact absurd e2 h2
      · exact Or.inr ⟨s, by simp [q1], t, by simp [q2], k, q3⟩
    | some b =>
      simp only [Option.bind_some]
      rw [C20_broadcast] at e1 e2
      apply eq_of_iff
      intro out
      rw [C20_broadcast, C20_broadcast]
      constructor
      · intro H
        obtain ⟨s1, p1, p2⟩ := e1.att
        obtain ⟨s2, p3, p4⟩ := e2.att
        refine ⟨?_, ?_, ?_, ?_⟩
        · intro s hs
          simp only [List.mem_cons, List.not_mem_nil, or_false] at hs
          rcases hs with rfl | rfl
          · rw [← p2]; exact H.le s1 (by simp [p1])
          · rw [← p4]; exact H.le s2 (by simp [p3])
        · obtain ⟨s, q1, q2⟩ := H.att
          have l1 := H.le s1 (by simp [p1])
          have l2 := H.le s2 (by simp [p3])
          rcases List.mem_append.mp q1 with q | q
          · exact ⟨a, by simp, by have := e1.le s q; omega⟩
          · exact ⟨b, by simp, by have := e2.le s q; omega⟩
        · intro s hs k
          simp only [List.mem_cons, List.not_mem_nil, or_false] at hs
          rcases hs with rfl | rfl
          · rcases e1.need k with q | ⟨t, q1, q2⟩
            · exact Or.inl q
            · rw [← q2]; exact H.fits t (by simp [q1]) k
          · rcases e2.need k with q | ⟨t, q1, q2⟩
            · exact Or.inl q
            · rw [← q2]; exact H.fits t (by simp [q1]) k
        · intro k
          rcases H.need k with q | ⟨t, q1, q2⟩
          · exact Or.inl q
          · by_cases hone : dimAt out k = 1
            · exact Or.inl hone
            right
            rcases List.mem_append.mp q1 with q | q
            · rcases e1.fits t q k with p | p
              · exact absurd (q2.symm.trans p) hone
              · exact ⟨a, by simp, p.symm.trans q2⟩
            · rcases e2.fits t q k with p | p
              · exact absurd (q2.symm.trans p) hone
              · exact ⟨b, by simp, p.symm.trans q2⟩
      · intro H
        refine ⟨?_, ?_, ?_, ?_⟩
        · intro s hs
          rcases List.mem_append.mp hs with q | q
          · exact Nat.le_trans (e1.le s q) (H.le a (by simp))
          · exact Nat.le_trans (e2.le s q) (H.le b (by simp))
        · obtain ⟨s, q1, q2⟩ := H.att
          simp only [List.mem_cons, List.not_mem_nil, or_false] at q1
          rcases q1 with rfl | rfl
          · obtain ⟨t, p1, p2⟩ := e1.att
            exact ⟨t, by simp [p1], p2.trans q2⟩
          · obtain ⟨t, p1, p2⟩ := e2.att
            exact ⟨t, by simp [p1], p2.trans q2⟩
        · intro s hs k
          rcases List.mem_append.mp hs with q | q
          · rcases e1.fits s q k with p | p
            · exact Or.inl p
            · rw [p]; exact H.fits a (by simp) k
          · rcases e2.fits s q k with p | p
            · exact Or.inl p
            · rw [p]; exact H.fits b (by simp) k
        · intro k
          rcases H.need k with q | ⟨t, q1, q2⟩
          · exact Or.inl q
          · by_cases hone : dimAt out k = 1
            · exact Or.inl hone
            right
            simp only [List.mem_cons, List.not_mem_nil, or_false] at q1
            rcases q1 with rfl | rfl
            · rcases e1.need k with p | ⟨s, p1, p2⟩
              · exact absurd (q2.symm.trans p) hone
              · exact ⟨s, by simp [p1], p2.trans q2⟩
            · rcases e2.need k with p | ⟨s, p1, p2⟩
              · exact absurd (q2.symm.trans p) hone
              · exact ⟨s, by simp [p1], p2.trans q2⟩

/-- The example of the docstring, a failure, and the hypotheses of C20_order and C20_grouping. -/
example : broadcastShapes [[1, 5], [3, 2, 1]] = some [3, 2, 5] ∧ broadcastShapes [[2], [3]] = none ∧
    broadcastShapes [[0], [1, 1], []] = some [1, 0] ∧ (∀ s, s ∈ [[1, 5], [3, 2, 1]] ↔ s ∈ [[3, 2, 1], [1, 5], [1, 5]]) ∧
    [[1, 5], [2, 1]] ≠ ([] : List Shape) := by
  refine ⟨by decide, by decide, by decide, ?_, by decide⟩
  intro s; simp; tauto

/-! ### Merging -/

/-- `b` knows everything that `a` knows. -/
def Extends (a b : List (Option α)) : Prop :=
  a.length = b.length ∧ ∀ (i : Nat) (v : α), a[i]? = some (some v) → b[i]? = some (some v)

theorem mergeNone_some [DecidableEq α] {a b c : List (Option α)} :
    mergeNone a b = some c ↔ a.length = b.length ∧ c.length = a.length ∧
      (∀ (i : Nat) (v w : α), a[i]? = some (some v) → b[i]? = some (some w) → v = w) ∧
      (∀ (i : Nat) (v : α), c[i]? = some (some v) ↔ (a[i]? = some (some v) ∨ b[i]? = some (some v))) := by
  induction a generalizing b c with
  | nil =>
    cases b with
    | nil =>
      simp only [mergeNone, List.length_nil, ne_eq, not_true_eq_false, if_false, List.zip_nil_left, List.any_nil,
        Bool.false_eq_true, List.map_nil, Option.some.injEq]
      constructor
      · rintro rfl; simp
      · rintro ⟨_, h, _⟩; exact (List.length_eq_zero_iff.mp h).symm
    | cons y ys => simp [mergeNone]
  | cons x xs ih =>
    cases b with
    | nil => simp [mergeNone]
    | cons y ys =>
      cases c with
      | nil =>
        simp only [List.length_cons, List.length_nil]
        constructor
        · intro h
          unfold mergeNone at h
          split at h
          · cases h
          · split at h
            · cases h
            · simp at h
        · rintro ⟨_, h, _⟩; omega
      | cons z zs =>
        have hcons : mergeNone (x :: xs) (y :: ys) = some (z :: zs) ↔
            (∀ v w, x = some v → y = some w → v = w) ∧ z = (if x ≠ none then x else y) ∧
              mergeNone xs ys = some zs := by
          unfold mergeNone
          by_cases hl : xs.length = ys.length
          · simp only [List.length_cons, hl, ne_eq, not_true_eq_false, if_false, List.zip_cons_cons, List.any_cons]
            by_cases h2 : (xs.zip ys).any (fun p => p.1 ≠ none && p.2 ≠ none && p.1 ≠ p.2) = true
            · have h2' := h2
              simp only [ne_eq] at h2'
              simp only [h2', Bool.or_true, if_true, reduceCtorEq, and_false]
            · have h2' := h2
              simp only [ne_eq, Bool.not_eq_true] at h2'
              simp only [h2', Bool.or_false, Bool.false_eq_true, if_false]
              cases x with
              | none => simp [eq_comm]
              | some v =>
                cases y with
                | none => simp [eq_comm]
                | some w =>
                  by_cases hvw : v = w
                  · simp [hvw, eq_comm]
                  · simp [hvw]
          · have hl' : ¬ (x :: xs).length = (y :: ys).length := by simpa using hl
            simp only [ne_eq, hl', hl, not_false_eq_true, if_true, reduceCtorEq, and_false]
        rw [hcons, ih]
        constructor
        · rintro ⟨h1, h2, h3, h4, h5, h6⟩
          refine ⟨by simp [h3], by simp [h4], ?_, ?_⟩
          · intro i v w
            cases i with
            | zero => simpa using h1 v w
            | succ i => simpa using h5 i v w
          · intro i v
            cases i with
            | succ i => simpa using h6 i v
            | zero =>
              simp only [List.getElem?_cons_zero, Option.some.injEq]
              rw [h2]
              cases x with
              | none => simp
              | some u =>
                simp only [ne_eq, reduceCtorEq, not_false_eq_true, if_true, Option.some.injEq]
                constructor
                · exact Or.inl
                · rintro (q | q)
                  · exact q
                  · exact h1 u v rfl q
        · rintro ⟨h3, h4, h5, h6⟩
          refine ⟨fun v w hv hw => h5 0 v w (by simp [hv]) (by simp [hw]), ?_, by simpa using h3, by simpa using h4,
            fun i v w => by simpa using h5 (i + 1) v w, fun i v => by simpa using h6 (i + 1) v⟩
          have h0 := fun v => h6 0 v
          simp only [List.getElem?_cons_zero, Option.some.injEq] at h0
          cases z with
          | none =>
            cases x with
            | none =>
              cases y with
              | none => simp
              | some w => have := (h0 w).mpr (Or.inr rfl); cases this
            | some v => have := (h0 v).mpr (Or.inl rfl); cases this
          | some v =>
            rcases (h0 v).mp rfl with q | q
            · rw [q]; simp
            · cases x with
              | none => simp [q]
              | some u =>
                have := (h0 u).mpr (Or.inl rfl)
                rw [this]; simp

/-- C21.  The result is the only tuple that agrees with every known entry of both, and is unknown exactly where both are. -/
theorem C21_merge [DecidableEq α] (a b c : List (Option α)) (h : mergeNone a b = some c) :
    c.length = a.length ∧ c.length = b.length ∧
      (∀ (i : Nat) (v : α), c[i]? = some (some v) ↔ (a[i]? = some (some v) ∨ b[i]? = some (some v))) ∧
      (∀ i : Nat, c[i]? = some none ↔ (a[i]? = some none ∧ b[i]? = some none)) := by
  obtain ⟨h1, h2, h3, h4⟩ := mergeNone_some.mp h
  refine ⟨h2, h2.trans h1, h4, ?_⟩
  intro i
  by_cases hi : i < a.length
  · have ha : a[i]? = some a[i] := List.getElem?_eq_getElem hi
    have hb : b[i]? = some b[i] := List.getElem?_eq_getElem (by omega)
    have hc : c[i]? = some c[i] := List.getElem?_eq_getElem (by omega)
    have := h4 i
    rw [ha, hb, hc] at this ⊢
    simp only [Option.some.injEq] at this ⊢
    cases h5 : c[i] with
    | none =>
      simp only [true_iff]
      rw [h5] at this
      constructor
      · cases h6 : a[i] with
        | none => rfl
        | some v => have := (this v).mpr (Or.inl h6); cases this
      · cases h6 : b[i] with
        | none => rfl
        | some v => have := (this v).mpr (Or.inr h6); cases this
    | some v =>
      simp only [reduceCtorEq, false_iff]
      rintro ⟨p, q⟩
      rcases (this v).mp h5 with r | r
      · rw [p] at r; cases r
      · rw [q] at r; cases r
  · have ha : a[i]? = none := List.getElem?_eq_none (by omega)
    have hc : c[i]? = none := List.getElem?_eq_none (by omega)
    rw [ha, hc]; simp

/-- C21.  The merging fails if and only if the lengths differ or two known entries differ. -/
theorem C21_failure [DecidableEq α] (a b : List (Option α)) :
    mergeNone a b = none ↔ a.length ≠ b.length ∨
      ∃ (i : Nat) (v w : α), a[i]? = some (some v) ∧ b[i]? = some (some w) ∧ v ≠ w := by
  unfold mergeNone
  by_cases hl : a.length ≠ b.length
  · rw [if_pos hl]; simp [hl]
  · rw [if_neg hl]
    have hl' : a.length = b.length := by simpa using hl
    by_cases h2 : (a.zip b).any (fun p => p.1 ≠ none && p.2 ≠ none && p.1 ≠ p.2) = true
    · rw [if_pos h2]
      simp only [true_iff]
      right
      rw [List.any_eq_true] at h2
      obtain ⟨⟨p, q⟩, h3, h4⟩ := h2
      obtain ⟨i, hi, h5⟩ := List.mem_iff_getElem.mp h3
      simp only [List.getElem_zip, Prod.mk.injEq] at h5
      simp only [List.length_zip] at hi
      simp only [ne_eq, Bool.and_eq_true, decide_eq_true_eq] at h4
      obtain ⟨⟨h6, h7⟩, h8⟩ := h4
      obtain ⟨v, rfl⟩ := Option.ne_none_iff_exists'.mp h6
      obtain ⟨w, rfl⟩ := Option.ne_none_iff_exists'.mp h7
      refine ⟨i, v, w, ?_, ?_, fun h => h8 (by rw [h])⟩
      · rw [List.getElem?_eq_getElem (by omega), h5.1]
      · rw [List.getElem?_eq_getElem (by omega), h5.2]
    · rw [if_neg h2]
      simp only [reduceCtorEq, false_iff, not_or, not_exists]
      refine ⟨by simpa using hl', ?_⟩
      rintro i v w ⟨h3, h4, h5⟩
      apply h2
      rw [List.any_eq_true]
      obtain ⟨h6, h7⟩ := List.getElem?_eq_some_iff.mp h3
      obtain ⟨h8, h9⟩ := List.getElem?_eq_some_iff.mp h4
      refine ⟨(some v, some w), ?_, by simpa using h5⟩
      rw [List.mem_iff_getElem]
      exact ⟨i, by simp only [List.length_zip]; omega, by simp only [List.getElem_zip, h7, h9]⟩

/-- C21.  The result is the least of the tuples that know everything that both know. -/
theorem C21_least [DecidableEq α] (a b c : List (Option α)) (h : mergeNone a b = some c) :
    Extends a c ∧ Extends b c ∧ ∀ d, Extends a d → Extends b d → Extends c d := by
  obtain ⟨h1, h2, h3, _⟩ := C21_merge a b c h
  refine ⟨⟨h1.symm, fun i v q => (h3 i v).mpr (Or.inl q)⟩, ⟨h2.symm, fun i v q => (h3 i v).mpr (Or.inr q)⟩, ?_⟩
  intro d ⟨l1, d1⟩ ⟨l2, d2⟩
  refine ⟨h1.trans l1, fun i v q => ?_⟩
  rcases (h3 i v).mp q with q | q
  · exact d1 i v q
  · exact d2 i v q

/-- C21.  Merging is commutative. -/
theorem C21_commutative [DecidableEq α] (a b : List (Option α)) : mergeNone a b = mergeNone b a := by
  apply eq_of_iff
  intro c
  rw [mergeNone_some, mergeNone_some]
  constructor
  · rintro ⟨h1, h2, h3, h4⟩
    exact ⟨h1.symm, h2.trans h1, fun i v w p q => (h3 i w v q p).symm, fun i v => (h4 i v).trans Or.comm⟩
  · rintro ⟨h1, h2, h3, h4⟩
    exact ⟨h1.symm, h2.trans h1, fun i v w p q => (h3 i w v q p).symm, fun i v => (h4 i v).trans Or.comm⟩

/-- C21.  Merging is idempotent. -/
theorem C21_idempotent [DecidableEq α] (a : List (Option α)) : mergeNone a a = some a := by
  rw [mergeNone_some]
  refine ⟨rfl, rfl, ?_, by simp⟩
  intro i v w p q
  rw [p] at q; simpa using q

/-- C21.  Merging is associative. -/
theorem C21_associative [DecidableEq α] (a b c : List (Option α)) :
    (mergeNone a b).bind (fun d => mergeNone d c) = (mergeNone b c).bind (fun d => mergeNone a d) := by
  have key : ∀ (a b c r : List (Option α)), (∃ d, mergeNone a b = some d ∧ mergeNone d c = some r) ↔
      (a.length = b.length ∧ b.length = c.length ∧ r.length = a.length ∧
        (∀ (i : Nat) (v w : α), a[i]? = some (some v) → b[i]? = some (some w) → v = w) ∧
        (∀ (i : Nat) (v w : α), a[i]? = some (some v) → c[i]? = some (some w) → v = w) ∧
        (∀ (i : Nat) (v w : α), b[i]? = some (some v) → c[i]? = some (some w) → v = w) ∧
        (∀ (i : Nat) (v : α), r[i]? = some (some v) ↔
          (a[i]? = some (some v) ∨ b[i]? = some (some v) ∨ c[i]? = some (some v)))) := by
    intro a b c r
    constructor
    · rintro ⟨d, h, h'⟩
      obtain ⟨h1, h2, h3, h4⟩ := mergeNone_some.mp h
      obtain ⟨k1, k2, k3, k4⟩ := mergeNone_some.mp h'
      refine ⟨h1, by omega, by omega, h3, fun i v w p q => k3 i v w ((h4 i v).mpr (Or.inl p)) q,
        fun i v w p q => k3 i v w ((h4 i v).mpr (Or.inr p)) q, fun i v => ?_⟩
      rw [k4, h4, or_assoc]
    · rintro ⟨h1, h2, h3, h4, h5, h6, h7⟩
      cases hd : mergeNone a b with
      | none =>
        exfalso
        rw [C21_failure] at hd
        rcases hd with q | ⟨i, v, w, q1, q2, q3⟩
        · exact q h1
        · exact q3 (h4 i v w q1 q2)
      | some d =>
        obtain ⟨k1, k2, k3, k4⟩ := mergeNone_some.mp hd
        refine ⟨d, rfl, mergeNone_some.mpr ⟨by omega, by omega, ?_, ?_⟩⟩
        · intro i v w p q
          rcases (k4 i v).mp p with p | p
          · exact h5 i v w p q
          · exact h6 i v w p q
        · intro i v
          rw [h7, k4, or_assoc]
  apply eq_of_iff
  intro r
  have e : (fun d => mergeNone a d) = (fun d => mergeNone d a) := funext (fun d => C21_commutative a d)
  rw [e]
  simp only [Option.bind_eq_some_iff]
  rw [key, key]
  constructor
  · rintro ⟨h1, h2, h3, h4, h5, h6, h7⟩
    refine ⟨h2, by omega, by omega, h6, fun i v w p q => (h4 i w v q p).symm, fun i v w p q => (h5 i w v q p).symm, ?_⟩
    intro i v; rw [h7]; tauto
  · rintro ⟨h1, h2, h3, h4, h5, h6, h7⟩
    refine ⟨by omega, by omega, by omega, fun i v w p q => (h5 i w v q p).symm, fun i v w p q => (h6 i w v q p).symm, h4, ?_⟩
    intro i v; rw [h7]; tauto

/-- The example of the docstring, which meets the hypotheses of C21_merge and C21_least, and the two kinds of failure. -/
example : mergeNone [some 1, none, some 3] [none, some 2, some 3] = some [some 1, some 2, some 3] ∧
    mergeNone [some 1, none] [some 2, none] = none ∧ mergeNone [some 1, none] [some 1] = none := by decide

end Verif.Shape
