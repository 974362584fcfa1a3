import Verif.Compose.Plan

/- Auxiliary lemmas: `_get_info` succeeds, properties of what it returns. -/

namespace Verif.Compose

variable {V : Type}

/-- The buffer of the innermost group is the input. -/
def LastOk (input : Arr) (preserve : Bool) (G : List Group) : Prop :=
  ∃ G' g, G = G' ++ [g] ∧ (g.aligned = true → input.aligned = true) ∧ (g.contiguous = true → input.contiguous = true) ∧
    (preserve = true → g.n = 0)

theorem stage_last (x0 xl : Opd V) (mid : List (Opd V)) (input : Arr) (preserve : Bool)
    (hal : xl.alignedIn = true → input.aligned = true) (hct : xl.contiguousIn = true → input.contiguous = true)
    (hia : xl.inplace = true → xl.alignedOut = true → xl.alignedIn = true)
    (hic : xl.inplace = true → xl.contiguousOut = true → xl.contiguousIn = true) :
    ∃ G g G1, (requirements (x0 :: (mid ++ [xl]))) = G ++ [g] ∧
      makeLast preserve input xl g (G ++ [g]) = Except.ok G1 ∧
      Fits G1 (x0 :: (mid ++ [xl])) ∧ LastOk input preserve G1 ∧
      (∃ g0 gs, G1 = g0 :: gs ∧ (x0.inplace = true → 0 < g0.n) ∧
        (x0.inplace = false → g0 = ⟨0, x0.alignedOut, x0.contiguousOut⟩)) ∧
      numOut (x0 :: (mid ++ [xl])) + 1 ≤ G1.length ∧
      G1.length ≤ numOut (x0 :: (mid ++ [xl])) + 1 + xl.inplace.toNat := by
  obtain ⟨G, g, e, h1, h2⟩ := requirements_last (x0 :: mid) xl
  rw [List.cons_append] at e
  obtain ⟨g0, G0, e0, h3, h4⟩ := requirements_first (mid ++ [xl]) x0
  have hf := fits_requirements (x0 :: (mid ++ [xl])) (by simp)
  have hlen := length_requirements (x0 :: (mid ++ [xl])) (by simp)
  rw [e] at hf hlen
  by_cases hl : lastOut preserve input xl.inplace g = true
  · -- the last operand works in place
    have hip : xl.inplace = true := by
      by_contra hh
      have hh : xl.inplace = false := by simpa using hh
      have hg := h2 hh
      subst hg
      simp only [lastOut, hh, Bool.and_false, Bool.false_or, Bool.or_eq_true, Bool.and_eq_true, Bool.not_eq_true',
        ] at hl
      rcases hl with ⟨p, q⟩ | ⟨p, q⟩
      · rw [hal q] at p; cases p
      · rw [hct q] at p; cases p
    have hn := h1 hip
    refine ⟨G, g, G ++ [{ g with n := g.n - 1 }, ⟨0, input.aligned, input.contiguous⟩], e, ?_, ?_, ?_, ?_, ?_, ?_⟩
    · rw [makeLast, if_pos hl]
      simp only [splitLast, List.getLast?_append, List.getLast?_singleton, Option.some_or, List.dropLast_concat]
      rw [if_neg (by omega)]
    · have := fits_splitLast G g (x0 :: mid) xl input.aligned input.contiguous (by simpa using hf) hn hal hct (hia hip)
        (hic hip)
      simpa using this
    · exact ⟨G ++ [{ g with n := g.n - 1 }], ⟨0, input.aligned, input.contiguous⟩, by simp, fun h => h, fun h => h,
        fun _ => rfl⟩
    · cases G with
      | nil =>
        refine ⟨{ g with n := g.n - 1 }, [⟨0, input.aligned, input.contiguous⟩], rfl, ?_, ?_⟩
        · intro hx
          simp [Fits] at hf
          simp only
          omega
        · intro hx
          have h5 := (h4 hx).2
          rw [e] at e0
          simp at e0
          exact absurd e0.2 (by simpa using h5)
      | cons a b =>
        rw [e] at e0
        simp only [List.cons_append, List.cons.injEq] at e0
        obtain ⟨rfl, _⟩ := e0
        exact ⟨a, b ++ [{ g with n := g.n - 1 }, ⟨0, input.aligned, input.contiguous⟩], rfl, h3, fun h => (h4 h).1⟩
    · simp at hlen ⊢; omega
    · rw [hip]; simp at hlen ⊢; omega
  · refine ⟨G, g, G ++ [g], e, by rw [makeLast, if_neg hl], hf, ?_, ?_, by omega, by omega⟩
    · refine ⟨G, g, rfl, ?_, ?_, ?_⟩
      · intro hg
        by_contra hh
        exact hl (by simp [lastOut, hg, hh])
      · intro hg
        by_contra hh
        exact hl (by simp [lastOut, hg, hh])
      · intro hp
        by_cases hip : xl.inplace = true
        · exact absurd (by simp [lastOut, hp, hip]) hl
        · have := h2 (by simpa using hip)
          rw [this]
    · exact ⟨g0, G0, by rw [← e, e0], h3, fun h => (h4 h).1⟩

/-- What `_get_info` returns. -/
structure InfoOk (ops : List (Opd V)) (sizes : List Nat) (input output : Arr) (preserve : Bool) (x0 xl : Opd V)
    (info : List (Group × Nat)) : Prop where
  fits : Fits (info.map Prod.fst) ops
  buf : BufOk sizes 0 info
  last : LastOk input preserve (info.map Prod.fst)
  first : ∃ g b gs, info = (g, b) :: gs ∧ (g.aligned = true → output.aligned = true) ∧
    (g.contiguous = true → output.contiguous = true) ∧ (∀ j, j ≤ g.n → sizes.getD j 0 ≤ sizes.getD 0 0) ∧
    (x0.inplace = false → g.n = 0)
  lower : numOut ops + 1 ≤ info.length
  upper : info.length ≤ numOut ops + 1 + xl.inplace.toNat + x0.inplace.toNat

theorem lastOk_splitFirst {input : Arr} {preserve : Bool} {g : Group} {gs : List Group} {h : Group}
    (hl : LastOk input preserve (g :: gs)) (hn : 0 < g.n) :
    LastOk input preserve (h :: { g with n := g.n - 1 } :: gs) := by
  obtain ⟨G', g', e, h1, h2, h3⟩ := hl
  cases G' with
  | nil =>
    simp at e
    obtain ⟨rfl, rfl⟩ := e
    exact ⟨[h], { g with n := g.n - 1 }, rfl, h1, h2, fun hp => by have := h3 hp; omega⟩
  | cons a b =>
    simp only [List.cons_append, List.cons.injEq] at e
    obtain ⟨rfl, rfl⟩ := e
    exact ⟨h :: { g with n := g.n - 1 } :: b, g', rfl, h1, h2, h3⟩

theorem getInfo_ok (x0 xl : Opd V) (mid : List (Opd V)) (shs : List Sh) (input output : Arr) (preserve : Bool)
    (hlen : shs.length = (x0 :: (mid ++ [xl])).length)
    (hal : xl.alignedIn = true → input.aligned = true) (hct : xl.contiguousIn = true → input.contiguous = true)
    (hoal : x0.alignedOut = true → output.aligned = true) (hoct : x0.contiguousOut = true → output.contiguous = true)
    (hia : xl.inplace = true → xl.alignedOut = true → xl.alignedIn = true)
    (hic : xl.inplace = true → xl.contiguousOut = true → xl.contiguousIn = true) :
    ∃ info, getInfo (x0 :: (mid ++ [xl])) shs input output preserve = .ok info ∧
      InfoOk (x0 :: (mid ++ [xl])) (shs.map Sh.nbytes) input output preserve x0 xl info := by
  obtain ⟨G, g, G1, e, e1, hf, hlast, ⟨g0, gs, eg, hp0, hp1⟩, hlo, hup⟩ :=
    stage_last x0 xl mid input preserve hal hct hia hic
  set sizes := shs.map Sh.nbytes with hs
  obtain ⟨s0, srest, hsz⟩ : ∃ s0 srest, sizes = s0 :: srest := by
    cases hh : sizes with
    | nil =>
      have : sizes.length = (x0 :: (mid ++ [xl])).length := by rw [hs, List.length_map, hlen]
      rw [hh] at this; simp at this
    | cons a b => exact ⟨a, b, rfl⟩
  subst eg
  have hgl : (x0 :: (mid ++ [xl])).getLast? = some xl := by
    rw [← List.cons_append, List.getLast?_append]; simp
  have hgg : (G ++ [g]).getLast? = some g := by simp
  have hunf : getInfo (x0 :: (mid ++ [xl])) shs input output preserve =
      (makeFirst output sizes (g0 :: gs)).bind (fun groups => .ok (groups.zip (bufsizes sizes groups))) := by
    unfold getInfo
    simp only [e, hgl, hgg, e1]
    rfl
  by_cases hfo : firstOut output sizes g0 = true
  · have hip : x0.inplace = true := by
      by_contra hh
      have hg := hp1 (by simpa using hh)
      subst hg
      simp only [firstOut, hsz, Nat.zero_add, List.take_succ_cons, List.take_zero, List.foldl_cons, List.foldl_nil,
        Bool.or_eq_true, decide_eq_true_eq, Bool.and_eq_true, Bool.not_eq_true'] at hfo
      rcases hfo with (hfo | ⟨p, q⟩) | ⟨p, q⟩
      · simp at hfo
      · rw [hoal q] at p; cases p
      · rw [hoct q] at p; cases p
    have hn := hp0 hip
    set G2 : List Group := ⟨0, output.aligned, output.contiguous⟩ :: { g0 with n := g0.n - 1 } :: gs with hG2
    have hG2f : (G2.zip (bufsizes sizes G2)).map Prod.fst = G2 := map_fst_bufsizes G2 sizes (by simp [hG2])
    refine ⟨G2.zip (bufsizes sizes G2), ?_, ?_, bufOk_bufsizes G2 sizes, ?_, ?_, ?_, ?_⟩
    · rw [hunf, makeFirst, if_pos hfo]
      simp only [splitFirst]
      rw [if_neg (by omega)]
      rfl
    · rw [hG2f]; exact fits_splitFirst g0 gs _ x0 _ _ hf hn hoal hoct
    · rw [hG2f]; exact lastOk_splitFirst hlast hn
    · refine ⟨⟨0, output.aligned, output.contiguous⟩, (sizes.take 1).foldl max 0,
        ({ g0 with n := g0.n - 1 } :: gs).zip (bufLoop (sizes.drop 1) ({ g0 with n := g0.n - 1 } :: gs) ++
          [sizes.getLastD 0]), ?_, fun h => h, fun h => h, ?_, fun _ => rfl⟩
      · simp [hG2, bufsizes, bufLoop]
      · intro j hj; simp at hj; subst hj; exact le_refl _
    · have : (G2.zip (bufsizes sizes G2)).length = G2.length := by rw [← List.length_map (f := Prod.fst), hG2f]
      rw [this, hG2]; simp at hlo ⊢; omega
    · have : (G2.zip (bufsizes sizes G2)).length = G2.length := by rw [← List.length_map (f := Prod.fst), hG2f]
      rw [this, hG2, hip]; simp at hup ⊢; omega
  · set G2 : List Group := g0 :: gs with hG2
    have hG2f : (G2.zip (bufsizes sizes G2)).map Prod.fst = G2 := map_fst_bufsizes G2 sizes (by simp [hG2])
    have hlen2 : (G2.zip (bufsizes sizes G2)).length = G2.length := by rw [← List.length_map (f := Prod.fst), hG2f]
    refine ⟨G2.zip (bufsizes sizes G2), ?_, ?_, bufOk_bufsizes G2 sizes, ?_, ?_, ?_, ?_⟩
    · rw [hunf, makeFirst, if_neg hfo]; rfl
    · rw [hG2f]; exact hf
    · rw [hG2f]; exact hlast
    · cases hz : G2.zip (bufsizes sizes G2) with
      | nil => rw [hz] at hG2f; simp [hG2] at hG2f
      | cons z zs =>
        rw [hz] at hG2f
        simp only [hG2, List.map_cons, List.cons.injEq] at hG2f
        refine ⟨g0, z.2, zs, ?_, ?_, ?_, ?_, ?_⟩
        · rw [← hG2f.1]
        · intro h
          by_contra hh
          exact hfo (by simp [firstOut, h, hh])
        · intro h
          by_contra hh
          exact hfo (by simp [firstOut, h, hh])
        · intro j hj
          by_contra hh
          apply hfo
          have := getD_take_le sizes (g0.n + 1) j (by omega)
          have h2 : sizes.getD 0 0 = s0 := by rw [hsz]; rfl
          have : s0 < (sizes.take (g0.n + 1)).foldl max 0 := by omega
          rw [hsz] at this
          simp only [firstOut, hsz, this]
          simp
        · intro h; rw [hp1 h]
    · rw [hlen2]; exact hlo
    · rw [hlen2]; omega

end Verif.Compose
