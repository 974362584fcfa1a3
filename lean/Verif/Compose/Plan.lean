import Verif.Compose.Model
import Mathlib.Order.Lattice
import Mathlib.Data.List.Basic

/- Auxiliary lemmas: the groups of operands that are determined by `_get_info`. -/

namespace Verif.Compose

variable {V : Type}

/-- The operands, from the outermost to the innermost one, are distributed in the groups: in each group but the innermost
one, an operand that writes in the buffer of the group, followed by operands that work in place. -/
def Fits : List Group → List (Opd V) → Prop
  | [], _ => False
  | [g], ops => ops.length = g.n ∧ ∀ x ∈ ops, x.inplace = true ∧ (x.alignedIn = true → g.aligned = true) ∧
      (x.contiguousIn = true → g.contiguous = true)
  | g :: g' :: gs, ops => ∃ a op b, ops = a ++ op :: b ∧ a.length = g.n ∧
      (∀ x ∈ a, x.inplace = true ∧ (x.alignedIn = true → g.aligned = true) ∧
        (x.contiguousIn = true → g.contiguous = true)) ∧
      (op.alignedOut = true → g.aligned = true) ∧ (op.contiguousOut = true → g.contiguous = true) ∧
      (op.alignedIn = true → g'.aligned = true) ∧ (op.contiguousIn = true → g'.contiguous = true) ∧
      Fits (g' :: gs) b

theorem fits_cons_inplace {g : Group} {gs : List Group} {l : List (Opd V)} {op : Opd V} (h : Fits (g :: gs) l)
    (hi : op.inplace = true) :
    Fits (⟨g.n + 1, g.aligned || op.alignedIn, g.contiguous || op.contiguousIn⟩ :: gs) (op :: l) := by
  cases gs with
  | nil =>
    obtain ⟨h1, h2⟩ := h
    refine ⟨by simp [h1], ?_⟩
    intro x hx
    rcases List.mem_cons.mp hx with rfl | hx
    · exact ⟨hi, by simp_all, by simp_all⟩
    · obtain ⟨a, b, c⟩ := h2 x hx
      exact ⟨a, fun h => by simp [b h], fun h => by simp [c h]⟩
  | cons g' gs =>
    obtain ⟨a, o, b, rfl, h2, h3, h4, h5, h6, h7, h8⟩ := h
    refine ⟨op :: a, o, b, rfl, by simp [h2], ?_, fun h => by simp [h4 h], fun h => by simp [h5 h], h6, h7, h8⟩
    intro x hx
    rcases List.mem_cons.mp hx with rfl | hx
    · exact ⟨hi, by simp_all, by simp_all⟩
    · obtain ⟨a, b, c⟩ := h3 x hx
      exact ⟨a, fun h => by simp [b h], fun h => by simp [c h]⟩

theorem fits_mono {g g2 : Group} {gs : List Group} {l : List (Opd V)} (h : Fits (g :: gs) l) (hn : g2.n = g.n)
    (ha : g.aligned = true → g2.aligned = true) (hc : g.contiguous = true → g2.contiguous = true) :
    Fits (g2 :: gs) l := by
  cases gs with
  | nil =>
    obtain ⟨h1, h2⟩ := h
    refine ⟨by simp [h1, hn], fun x hx => ?_⟩
    obtain ⟨a, b, c⟩ := h2 x hx
    exact ⟨a, fun h => ha (b h), fun h => hc (c h)⟩
  | cons g' gs =>
    obtain ⟨a, o, b, rfl, h2, h3, h4, h5, h6, h7, h8⟩ := h
    refine ⟨a, o, b, rfl, by simp [h2, hn], fun x hx => ?_, fun h => ha (h4 h), fun h => hc (h5 h), h6, h7, h8⟩
    obtain ⟨a, b, c⟩ := h3 x hx
    exact ⟨a, fun h => ha (b h), fun h => hc (c h)⟩

theorem fits_reqLoop : ∀ (rops : List (Opd V)) (g : Group) (gs : List Group) (done : List (Opd V)), rops ≠ [] →
    Fits (g :: gs) done → Fits ((reqLoop rops g).reverse ++ gs) (rops.reverse ++ done) := by
  intro rops
  induction rops with
  | nil => intro g gs done h; exact absurd rfl h
  | cons op rest ih =>
    intro g gs done _ hf
    by_cases hi : op.inplace = true
    · have hf2 := fits_cons_inplace hf hi
      cases rest with
      | nil => simpa [reqLoop, hi] using hf2
      | cons o2 r2 =>
        have := ih _ _ _ (by simp) hf2
        simpa [reqLoop, hi] using this
    · have hf2 : Fits (⟨g.n, g.aligned || op.alignedIn, g.contiguous || op.contiguousIn⟩ :: gs) done :=
        fits_mono hf rfl (fun h => by simp [h]) (fun h => by simp [h])
      have hf3 : Fits ((⟨0, op.alignedOut, op.contiguousOut⟩ : Group) ::
          ⟨g.n, g.aligned || op.alignedIn, g.contiguous || op.contiguousIn⟩ :: gs) (op :: done) :=
        ⟨[], op, done, rfl, rfl, by simp, fun h => h, fun h => h, fun h => by simp [h], fun h => by simp [h], hf2⟩
      cases rest with
      | nil => simpa [reqLoop, hi] using hf3
      | cons o2 r2 =>
        have := ih _ _ _ (by simp) hf3
        simpa [reqLoop, hi] using this

theorem fits_requirements (ops : List (Opd V)) (h : ops ≠ []) : Fits (requirements ops) ops := by
  have := fits_reqLoop ops.reverse ⟨0, false, false⟩ [] [] (by simpa using h) (by simp [Fits])
  simpa [requirements] using this

/-- Number of operands that do not work in place. -/
def numOut (ops : List (Opd V)) : Nat := (ops.filter (fun o => !o.inplace)).length

theorem length_reqLoop : ∀ (rops : List (Opd V)) (g : Group), rops ≠ [] →
    (reqLoop rops g).length = numOut rops + 1 := by
  intro rops
  induction rops with
  | nil => intro g h; exact absurd rfl h
  | cons op rest ih =>
    intro g _
    cases rest with
    | nil => by_cases hi : op.inplace = true <;> simp [reqLoop, hi, numOut]
    | cons o2 r2 =>
      by_cases hi : op.inplace = true
      · have := ih ⟨g.n + 1, g.aligned || op.alignedIn, g.contiguous || op.contiguousIn⟩ (by simp)
        simp only [reqLoop, hi, if_true] at this ⊢
        rw [this]
        simp [numOut, hi]
      · have := ih ⟨0, op.alignedOut, op.contiguousOut⟩ (by simp)
        simp only [reqLoop, hi] at this ⊢
        simp only [Bool.false_eq_true, if_false, List.length_cons]
        rw [this]
        simp [numOut, hi]

theorem length_requirements (ops : List (Opd V)) (h : ops ≠ []) : (requirements ops).length = numOut ops + 1 := by
  have := length_reqLoop ops.reverse ⟨0, false, false⟩ (by simpa using h)
  simp only [requirements, List.length_reverse, this, numOut, List.filter_reverse]

/-- The innermost group. -/
theorem reqLoop_head : ∀ (rops : List (Opd V)) (g : Group) (op : Opd V), 
    ∃ h t, reqLoop (op :: rops) g = h :: t ∧ g.n ≤ h.n ∧ (op.inplace = true → g.n < h.n) ∧
      (op.inplace = false → h = ⟨g.n, g.aligned || op.alignedIn, g.contiguous || op.contiguousIn⟩) := by
  intro rops
  induction rops with
  | nil =>
    intro g op
    by_cases hi : op.inplace = true <;> simp [reqLoop, hi]
  | cons o2 r2 ih =>
    intro g op
    by_cases hi : op.inplace = true
    · obtain ⟨h, t, e, h1, h2, _⟩ := ih ⟨g.n + 1, g.aligned || op.alignedIn, g.contiguous || op.contiguousIn⟩ o2
      refine ⟨h, t, ?_, ?_, ?_, ?_⟩
      · rw [← e]; simp [reqLoop, hi]
      · simp only at h1; omega
      · intro _; simp only at h1; omega
      · simp [hi]
    · simp [reqLoop, hi]

/-- The outermost group. -/
theorem reqLoop_last : ∀ (rops : List (Opd V)) (g : Group) (op : Opd V),
    ∃ h t, reqLoop (rops ++ [op]) g = t ++ [h] ∧ (op.inplace = true → 0 < h.n) ∧
      (op.inplace = false → h = ⟨0, op.alignedOut, op.contiguousOut⟩ ∧ t ≠ []) := by
  intro rops
  induction rops with
  | nil =>
    intro g op
    by_cases hi : op.inplace = true
    · exact ⟨⟨g.n + 1, g.aligned || op.alignedIn, g.contiguous || op.contiguousIn⟩, [], by simp [reqLoop, hi], by simp,
        by simp [hi]⟩
    · exact ⟨⟨0, op.alignedOut, op.contiguousOut⟩, [⟨g.n, g.aligned || op.alignedIn, g.contiguous || op.contiguousIn⟩],
        by simp [reqLoop, hi], by simp [hi], by simp⟩
  | cons o2 r2 ih =>
    intro g op
    have hne : r2 ++ [op] ≠ [] := by simp
    by_cases hi : o2.inplace = true
    · obtain ⟨h, t, e, h1, h2⟩ := ih ⟨g.n + 1, g.aligned || o2.alignedIn, g.contiguous || o2.contiguousIn⟩ op
      refine ⟨h, t, ?_, h1, h2⟩
      rw [← e]
      cases hr : r2 ++ [op] with
      | nil => exact absurd hr hne
      | cons x y => simp [reqLoop, hi, hr]
    · obtain ⟨h, t, e, h1, h2⟩ := ih ⟨0, o2.alignedOut, o2.contiguousOut⟩ op
      refine ⟨h, ⟨g.n, g.aligned || o2.alignedIn, g.contiguous || o2.contiguousIn⟩ :: t, ?_, h1, ?_⟩
      · rw [List.cons_append, List.cons_append, ← e]
        cases hr : r2 ++ [op] with
        | nil => exact absurd hr hne
        | cons x y => simp [reqLoop, hi, hr]
      · intro hh; exact ⟨(h2 hh).1, by simp⟩

theorem requirements_last (ops : List (Opd V)) (op : Opd V) :
    ∃ G g, requirements (ops ++ [op]) = G ++ [g] ∧ (op.inplace = true → 0 < g.n) ∧
      (op.inplace = false → g = ⟨0, op.alignedIn, op.contiguousIn⟩) := by
  obtain ⟨h, t, e, _, h2, h3⟩ := reqLoop_head ops.reverse ⟨0, false, false⟩ op
  exact ⟨t.reverse, h, by simp [requirements, e], h2, by simpa using h3⟩

theorem requirements_first (ops : List (Opd V)) (op : Opd V) :
    ∃ g G, requirements (op :: ops) = g :: G ∧ (op.inplace = true → 0 < g.n) ∧
      (op.inplace = false → g = ⟨0, op.alignedOut, op.contiguousOut⟩ ∧ G ≠ []) := by
  obtain ⟨h, t, e, h1, h2⟩ := reqLoop_last ops.reverse ⟨0, false, false⟩ op
  exact ⟨h, t.reverse, by simp [requirements, e], h1, by simpa using h2⟩

theorem fits_splitLast : ∀ (G : List Group) (g : Group) (ops : List (Opd V)) (x : Opd V) (al ct : Bool),
    Fits (G ++ [g]) (ops ++ [x]) → 0 < g.n → (x.alignedIn = true → al = true) → (x.contiguousIn = true → ct = true) →
    (x.alignedOut = true → x.alignedIn = true) → (x.contiguousOut = true → x.contiguousIn = true) →
    Fits (G ++ [{ g with n := g.n - 1 }, ⟨0, al, ct⟩]) (ops ++ [x]) := by
  intro G
  induction G with
  | nil =>
    intro g ops x al ct hf hn h1 h2 h3 h4
    obtain ⟨ha, hb⟩ := hf
    have hx := hb x (by simp)
    refine ⟨ops, x, [], by simp, ?_, fun y hy => hb y (by simp [hy]), fun h => hx.2.1 (h3 h),
      fun h => hx.2.2 (h4 h), h1, h2, by simp [Fits]⟩
    simp at ha
    simp only; omega
  | cons g0 G ih =>
    intro g ops x al ct hf hn h1 h2 h3 h4
    -- the shape of the tail
    have key : ∃ g1 gs1, G ++ [g] = g1 :: gs1 ∧ ∃ gs2 g2, G ++ [{ g with n := g.n - 1 }, ⟨0, al, ct⟩] = g2 :: gs2 ∧
        g2.aligned = g1.aligned ∧ g2.contiguous = g1.contiguous := by
      cases G with
      | nil => exact ⟨g, [], rfl, [⟨0, al, ct⟩], _, rfl, rfl, rfl⟩
      | cons a b => exact ⟨a, b ++ [g], rfl, b ++ [{ g with n := g.n - 1 }, ⟨0, al, ct⟩], a, rfl, rfl, rfl⟩
    obtain ⟨g1, gs1, e1, gs2, g2, e2, e3, e4⟩ := key
    rw [List.cons_append, e1] at hf
    obtain ⟨a, op, b, h5, h6, h7, h8, h9, h10, h11, h12⟩ := hf
    -- the last operand is in the tail
    have hb : b ≠ [] := by
      rintro rfl
      have hG : ∀ (L : List Group), 0 < g.n → ¬ Fits (L ++ [g]) ([] : List (Opd V)) := by
        intro L hn hL
        cases L with
        | nil => simp [Fits] at hL; omega
        | cons p q =>
          cases q with
          | nil => simp [Fits] at hL
          | cons _ _ => simp [Fits] at hL
      exact hG G hn (e1 ▸ h12)
    obtain ⟨b', y, rfl⟩ : ∃ b' y, b = b' ++ [y] := ⟨b.dropLast, b.getLast hb, (List.dropLast_concat_getLast hb).symm⟩
    have h5' : ops ++ [x] = (a ++ op :: b') ++ [y] := by simpa using h5
    obtain ⟨h5a, h5b⟩ := List.append_inj' h5' rfl
    have hxy : x = y := by simpa using h5b
    subst hxy
    have := ih g b' x al ct (by rw [e1]; exact h12) hn h1 h2 h3 h4
    rw [e2] at this
    rw [List.cons_append, e2]
    exact ⟨a, op, b' ++ [x], by simpa using h5, h6, h7, h8, h9, fun h => by rw [e3]; exact h10 h,
      fun h => by rw [e4]; exact h11 h, this⟩

theorem fits_splitFirst (g : Group) (gs : List Group) (ops : List (Opd V)) (x : Opd V) (al ct : Bool)
    (hf : Fits (g :: gs) (x :: ops)) (hn : 0 < g.n) (h1 : x.alignedOut = true → al = true)
    (h2 : x.contiguousOut = true → ct = true) :
    Fits (⟨0, al, ct⟩ :: { g with n := g.n - 1 } :: gs) (x :: ops) := by
  cases gs with
  | nil =>
    obtain ⟨ha, hb⟩ := hf
    have hx := hb x (by simp)
    refine ⟨[], x, ops, rfl, rfl, by simp, h1, h2, hx.2.1, hx.2.2, ?_, fun y hy => hb y (by simp [hy])⟩
    simp at ha
    simp only; omega
  | cons g' gs =>
    obtain ⟨a, o, b, e, h3, h4, h5, h6, h7, h8, h9⟩ := hf
    cases a with
    | nil => simp at h3; omega
    | cons y a =>
      simp only [List.cons_append, List.cons.injEq] at e
      obtain ⟨rfl, rfl⟩ := e
      have hx := h4 x (by simp)
      refine ⟨[], x, a ++ o :: b, rfl, rfl, by simp, h1, h2, hx.2.1, hx.2.2, a, o, b, rfl, ?_,
        fun y hy => h4 y (by simp [hy]), h5, h6, h7, h8, h9⟩
      simp at h3
      simp only; omega

/-- The buffer of each group but the innermost one is large enough for the outputs of its operands; `p` is the number of
operands before the group. -/
def BufOk (sizes : List Nat) : Nat → List (Group × Nat) → Prop
  | _, [] => True
  | _, [_] => True
  | p, g :: gs => (∀ j, j ≤ g.1.n → sizes.getD (p + j) 0 ≤ g.2) ∧ BufOk sizes (p + g.1.n + 1) gs

theorem le_foldl_max : ∀ (l : List Nat) (m : Nat), m ≤ l.foldl max m ∧ ∀ x ∈ l, x ≤ l.foldl max m := by
  intro l
  induction l with
  | nil => intro m; simp
  | cons a l ih =>
    intro m
    obtain ⟨h1, h2⟩ := ih (max m a)
    refine ⟨le_trans (le_max_left m a) h1, ?_⟩
    intro x hx
    rcases List.mem_cons.mp hx with rfl | hx
    · exact le_trans (le_max_right m x) h1
    · exact h2 x hx

theorem getD_take_le (l : List Nat) (n j : Nat) (h : j < n) : l.getD j 0 ≤ (l.take n).foldl max 0 := by
  by_cases hj : j < l.length
  · have : l.getD j 0 ∈ l.take n := by
      rw [List.getD_eq_getElem?_getD, List.getElem?_eq_getElem hj]
      simp only [Option.getD_some]
      exact List.mem_take_iff_getElem.mpr ⟨j, by simp [h, hj], rfl⟩
    exact (le_foldl_max _ 0).2 _ this
  · simp [List.getD_eq_getElem?_getD, List.getElem?_eq_none (not_lt.mp hj)]

theorem length_bufLoop : ∀ (G : List Group) (sizes : List Nat), (bufLoop sizes G).length = G.length - 1 := by
  intro G
  induction G with
  | nil => intro sizes; rfl
  | cons g gs ih =>
    intro sizes
    cases gs with
    | nil => rfl
    | cons g' gs => simp [bufLoop, ih]

theorem bufOk_bufLoop : ∀ (G : List Group) (sizes full : List Nat) (p last : Nat),
    sizes = full.drop p → BufOk full p (G.zip (bufLoop sizes G ++ [last])) := by
  intro G
  induction G with
  | nil => intro sizes full p last he; simp [BufOk]
  | cons g gs ih =>
    intro sizes full p last he
    cases gs with
    | nil => simp [bufLoop, BufOk]
    | cons g' gs =>
      have hb := ih (sizes.drop (g.n + 1)) full (p + g.n + 1) last (by rw [he, List.drop_drop]; congr 1)
      have hj : ∀ j, j ≤ g.n → full.getD (p + j) 0 ≤ (sizes.take (g.n + 1)).foldl max 0 := by
        intro j hj
        have := getD_take_le sizes (g.n + 1) j (by omega)
        rw [he] at this ⊢
        simpa [List.getD_eq_getElem?_getD] using this
      simp only [bufLoop, List.cons_append, List.zip_cons_cons]
      cases hz : (g' :: gs).zip (bufLoop (sizes.drop (g.n + 1)) (g' :: gs) ++ [last]) with
      | nil => simp [BufOk]
      | cons z zs =>
        rw [hz] at hb
        exact ⟨hj, hb⟩

theorem bufOk_bufsizes (G : List Group) (sizes : List Nat) : BufOk sizes 0 (G.zip (bufsizes sizes G)) :=
  bufOk_bufLoop G sizes sizes 0 _ rfl

theorem map_fst_bufsizes (G : List Group) (sizes : List Nat) (h : G ≠ []) :
    (G.zip (bufsizes sizes G)).map Prod.fst = G := by
  apply List.map_fst_zip
  have := List.length_pos_iff.mpr h
  simp [bufsizes, length_bufLoop]
  omega

end Verif.Compose
