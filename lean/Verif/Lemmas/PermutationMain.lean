import Verif.Lemmas.PermutationRows

/-!
# The permutation argument: completeness and soundness
-/

namespace Crypto3Zk

set_option linter.unusedSectionVars false

open Equiv.Perm

variable {F : Type} [Field F] {S : Type} {L : FftLib F} {A : Nat}

/-- What is known when the prover succeeds. -/
theorem permProve_inv [DecidableEq F] (ch : S → F × S) (n : Nat) (pre : PermData F)
    (column : Nat → Option (List F)) (gi : List Nat) (st st' : S) (res : PermResult F)
    (cols : List (List F)) (hcols : gi.mapM column = some cols) (beta gamma : F)
    (hbeta : beta = (ch st).1) (hgamma : gamma = (ch (ch st).2).1)
    (gv hv : List (List F)) (hgv : gv = List.zipWith (permFactor beta gamma) pre.sId cols)
    (hhv : hv = List.zipWith (permFactor beta gamma) pre.sSigma cols)
    (gs hs : List (List F)) (hgs : gs = (groupFactors pre.mqc gv []).map polyProduct)
    (hhs : hs = (groupFactors pre.mqc hv []).map polyProduct)
    (h : permProve ch L n pre column gi st = some (res, st')) :
    ∃ rest, runningProduct (rowProduct L n gv) (rowProduct L n hv) (2 ^ n - 1) 0 1 = some rest ∧
      gs.length = pre.parts ∧ gs.length = hs.length ∧ pre.parts ≠ 0 ∧
      res.V = L.coefficients (1 :: rest) ∧
      res.F0 = polyMul (polySub [1] res.V) pre.lagrange0 ∧
      res.F2 = polyMul (polyMul (polySub res.V [1]) res.V) pre.qLast ∧
      ((pre.parts = 1 ∧ ∃ g h, gs = [g] ∧ hs = [h] ∧ res.partitions = [] ∧
          res.F1 = polyMul (polySub (polySub [1] pre.qLast) pre.qBlind)
            (polySub (polyMul (shiftPoly ((L.domain n).elem 1) res.V) h) (polyMul res.V g))) ∨
        (pre.parts ≠ 1 ∧ ∃ alphas r g h, alphas.length = pre.parts - 1 ∧
          partLoop L n pre.usableRows ((gs.zip hs).zip alphas) (1 :: rest) (1 :: rest) [] = some r ∧
          gs[pre.parts - 1]? = some g ∧ hs[pre.parts - 1]? = some h ∧
          res.partitions = r.1.map L.coefficients ∧
          res.F1 = polyMul (polyAdd r.2.1 (polySub (polyMul (L.coefficients r.2.2) g)
            (polyMul (shiftPoly ((L.domain n).elem 1) res.V) h)))
            (polySub (polyAdd pre.qLast pre.qBlind) [1]))) := by
  unfold permProve at h
  simp only [hcols, Option.bind_eq_bind, Option.bind_some] at h
  by_cases h0 : gi.length ≠ pre.sId.length ∨ gi.length ≠ pre.sSigma.length
  · rw [if_pos h0] at h; simp at h
  rw [if_neg h0] at h
  rw [← hbeta, ← hgamma, ← hgv, ← hhv, ← hgs, ← hhs] at h
  obtain ⟨rest, hrest, h⟩ := Option.bind_eq_some_iff.1 h
  by_cases h1 : gs.length ≠ pre.parts ∨ gs.length ≠ hs.length ∨ pre.parts = 0
  · rw [if_pos h1] at h; simp at h
  rw [if_neg h1] at h
  push Not at h1
  obtain ⟨h1, h2, h3⟩ := h1
  by_cases hp : pre.parts = 1
  · rw [if_pos hp] at h
    simp only [Option.bind_eq_some_iff, Option.some.injEq, Prod.mk.injEq] at h
    obtain ⟨g, hg, hh, hhh, rfl, rfl⟩ := h
    refine ⟨rest, hrest, h1, h2, h3, rfl, rfl, rfl, .inl ⟨hp, g, hh, ?_, ?_, rfl, rfl⟩⟩
    · obtain ⟨g', hg'⟩ := List.length_eq_one_iff.1 (h1.trans hp)
      rw [hg'] at hg ⊢
      simpa using hg
    · obtain ⟨g', hg'⟩ := List.length_eq_one_iff.1 (h2.symm.trans (h1.trans hp))
      rw [hg'] at hhh ⊢
      simpa using hhh
  · rw [if_neg hp] at h
    simp only [Option.bind_eq_some_iff, Option.some.injEq, Prod.mk.injEq] at h
    obtain ⟨r, hr, g, hg, hh, hhh, rfl, rfl⟩ := h
    rw [length_drawN] at hg hhh
    exact ⟨rest, hrest, h1, h2, h3, rfl, rfl, rfl,
      .inr ⟨hp, _, r, g, hh, length_drawN _ _ _, hr, hg, hhh, rfl, rfl⟩⟩

theorem runningProduct_total (num den v : Nat → F) (u : Nat)
    (h : ∀ i < u, v (i + 1) * den i = v i * num i) :
    v u * ∏ j ∈ Finset.range u, den j = v 0 * ∏ j ∈ Finset.range u, num j := by
  induction u with
  | zero => simp
  | succ u ih =>
    rw [Finset.prod_range_succ, Finset.prod_range_succ]
    have h1 := h u (by omega)
    have h2 := ih (fun i hi => h i (by omega))
    linear_combination (∏ j ∈ Finset.range u, den j) * h1 + num u * h2

theorem prod_take_last (f : List F → F) (gs : List (List F)) (k : Nat) (hk : gs.length = k + 1)
    (g : List F) (hg : gs[k]? = some g) : (gs.map f).prod = ((gs.take k).map f).prod * f g := by
  have : gs = gs.take k ++ [g] := by
    have h1 := List.take_append_getElem (l := gs) (i := k) (by omega)
    rw [List.take_of_length_le (i := k + 1) (by omega)] at h1
    rw [List.getElem?_eq_getElem (by omega)] at hg
    simp only [Option.some.injEq] at hg
    rw [hg] at h1
    exact h1.symm
  conv_lhs => rw [this]
  simp

section

variable {n : Nat} {d : TableDesc} {cs : List (PlonkVar × PlonkVar)}
    {order : List PlonkVar} {gi : List Nat} {delta : F} {mqc : Nat} {pre : PermData F}

/-- The prover's polynomials vanish on the rows when the copy constraints hold. -/
theorem PermSetup.complete [DecidableEq F] (hS : PermSetup L A n d cs order gi delta mqc pre)
    (ch : S → F × S) (st st' : S) (column : Nat → Option (List F)) (res : PermResult F)
    (cols : List (List F)) (hcols : gi.mapM column = some cols)
    (hc : CopiesHold d cs (columnValue L n column))
    (h : permProve ch L n pre column gi st = some (res, st')) :
    rowValue L n res.V 0 = 1 ∧ rowValue L n res.V d.usableRows = 1 ∧
      VanishesOnRows L n res.F0 ∧ VanishesOnRows L n res.F1 ∧ VanishesOnRows L n res.F2 := by
  obtain ⟨σ, hf⟩ := hS.facts
  have hr := hS.rows
  have hu := hS.usable
  set beta := (ch st).1 with hbeta
  set gamma := (ch (ch st).2).1 with hgamma
  set gv := List.zipWith (permFactor beta gamma) pre.sId cols with hgv
  set hv := List.zipWith (permFactor beta gamma) pre.sSigma cols with hhv
  set gs := (groupFactors pre.mqc gv []).map polyProduct with hgs
  set hs := (groupFactors pre.mqc hv []).map polyProduct with hhs
  obtain ⟨rest, hrest, h1, h2, h3, hV, hF0, hF2, hF1⟩ := permProve_inv ch n pre column gi st st' res
    cols hcols beta gamma hbeta hgamma gv hv hgv hhv gs hs hgs hhs h
  obtain ⟨r1, r2, r3⟩ := runningProduct_spec _ _ _ _ _ _ hrest
  have hlen : (1 :: rest).length = 2 ^ n := by
    rw [List.length_cons, r1]; have := Nat.two_pow_pos n; omega
  have hrow : ∀ j < 2 ^ n, rowValue L n res.V j = (1 :: rest).getD j 0 := by
    intro j hj
    rw [hV]
    exact rowValue_coefficients hS.lib n hS.small _ hlen j hj
  have hG : ∀ j, rowProduct L n gv j = (gs.map (rowValue L n · j)).prod := by
    intro j
    rw [rowProduct_eq]
    have := groupFactors_prod pre.mqc gv [] ((L.domain n).elem j)
    simp only [List.map_nil, List.prod_nil, one_mul] at this
    exact this.symm
  have hH : ∀ j, rowProduct L n hv j = (hs.map (rowValue L n · j)).prod := by
    intro j
    rw [rowProduct_eq]
    have := groupFactors_prod pre.mqc hv [] ((L.domain n).elem j)
    simp only [List.map_nil, List.prod_nil, one_mul] at this
    exact this.symm
  have hstep : ∀ j < d.usableRows, rowValue L n res.V (j + 1) * (hs.map (rowValue L n · j)).prod =
      rowValue L n res.V j * (gs.map (rowValue L n · j)).prod := by
    intro j hj
    rw [hrow _ (by omega), hrow _ (by omega), ← hG, ← hH]
    have := r3 j (by omega)
    simpa using this
  have hV0 : rowValue L n res.V 0 = 1 := by
    rw [hrow 0 (by omega)]; rfl
  -- the product closes
  have hclose : rowValue L n res.V d.usableRows = 1 := by
    have htot := runningProduct_total (fun j => (gs.map (rowValue L n · j)).prod)
      (fun j => (hs.map (rowValue L n · j)).prod) (rowValue L n res.V) d.usableRows hstep
    obtain ⟨p1, p2⟩ := hS.products hf column cols hcols beta gamma
    simp only [← hG, ← hH, rowProduct_eq] at htot
    rw [p1, p2, hV0, one_mul, ← grandProduct_complete _ σ hf.support _ _
      ((hS.invariant_iff hf column).2 hc), grandProduct_complete _ σ hf.support _ _
      ((hS.invariant_iff hf column).2 hc)] at htot
    have hne : ∏ k ∈ permCells gi d.usableRows,
        (cellId L n gi delta (σ k) * beta + (cellVal L n column k + gamma)) ≠ 0 := by
      rw [← p2, Finset.prod_ne_zero_iff]
      intro j hj
      rw [Finset.mem_range] at hj
      have := r2 j (by omega)
      rw [Nat.zero_add, rowProduct_eq] at this
      exact this
    exact (mul_eq_right₀ hne).1 htot
  have helem : ∀ j, L.root n ^ j = (L.domain n).elem j := by intro j; simp [FftLib.domain]
  have hsh : ∀ j, evalPoly (shiftPoly ((L.domain n).elem 1) res.V) ((L.domain n).elem j) =
      rowValue L n res.V (j + 1) := by
    intro j
    rw [evalPoly_shiftPoly, ← helem 1, pow_one, root_mul_elem]
    rfl
  refine ⟨hV0, hclose, ?_, ?_, ?_⟩
  · intro j hj
    rw [helem, hF0, evalPoly_polyMul, evalPoly_polySub, evalPoly_single]
    have h5 := hf.lagrange0 j hj
    unfold rowValue at h5 hV0
    rw [h5]
    by_cases hj0 : j = 0
    · subst hj0; rw [hV0]; simp
    · simp [hj0]
  · intro j hj
    rw [helem]
    have ql := hf.qLast j hj
    have qb := hf.qBlind j hj
    by_cases hju : j < d.usableRows
    · have hs' := hstep j hju
      rcases hF1 with ⟨_, g, hh, rfl', rfl'', _, hF1⟩ | ⟨hp, alphas, r, g, hh, hal, hpl, hg, hhh, _, hF1⟩
      · rw [rfl', rfl''] at hs'
        simp only [List.map_cons, List.map_nil, List.prod_singleton] at hs'
        rw [hF1, evalPoly_polyMul, evalPoly_polySub (polyMul _ _), evalPoly_polyMul,
          evalPoly_polyMul, hsh]
        unfold rowValue at hs' ⊢
        rw [hs']
        ring
      · obtain ⟨_, q2, q3⟩ := partLoop_rows hS.lib n hS.small pre.usableRows _ _ _ _ _ hlen hlen
          (by rw [hf.usableEq]; omega) hpl
        obtain ⟨s1, s2, s3⟩ := q3 j (by rw [hf.usableEq]; exact hju)
        have hk : gs.length = (pre.parts - 1) + 1 := by omega
        have hk' : hs.length = (pre.parts - 1) + 1 := by omega
        have e1 : ((gs.zip hs).zip alphas).map (fun t => rowValue L n t.1.1 j) =
            (gs.take (pre.parts - 1)).map (rowValue L n · j) := by
          apply List.ext_getElem
          · simp; omega
          · intro i _ _; simp
        have e2 : ((gs.zip hs).zip alphas).map (fun t => rowValue L n t.1.2 j) =
            (hs.take (pre.parts - 1)).map (rowValue L n · j) := by
          apply List.ext_getElem
          · simp; omega
          · intro i _ _; simp
        rw [e1, e2] at s3
        rw [e2] at s2
        rw [prod_take_last _ gs _ hk g hg, prod_take_last _ hs _ hk' hh hhh] at hs'
        rw [← hrow j hj] at s3
        have s4 := rowValue_coefficients hS.lib n hS.small r.2.2 q2 j hj
        rw [hF1, evalPoly_polyMul, evalPoly_polyAdd, evalPoly_polySub, evalPoly_polyMul,
          evalPoly_polyMul, hsh]
        unfold rowValue at s1 s4
        rw [s1, s4, evalPoly_nil, zero_add]
        have : r.2.2.getD j 0 * rowValue L n g j = rowValue L n res.V (j + 1) * rowValue L n hh j := by
          apply mul_right_cancel₀ s2
          linear_combination (rowValue L n g j) * s3 - hs'
        rw [show evalPoly g ((L.domain n).elem j) = rowValue L n g j from rfl,
          show evalPoly hh ((L.domain n).elem j) = rowValue L n hh j from rfl, this, sub_self,
          zero_mul]
    · have hm : evalPoly pre.qLast ((L.domain n).elem j) +
          evalPoly pre.qBlind ((L.domain n).elem j) = 1 := by
        unfold rowValue at ql qb
        rw [ql, qb]
        by_cases e : j = d.usableRows
        · rw [if_pos e, if_neg (by omega), add_zero]
        · rw [if_neg e, if_pos (by omega), zero_add]
      rcases hF1 with ⟨_, g, hh, _, _, _, hF1⟩ | ⟨hp, alphas, r, g, hh, hal, hpl, hg, hhh, _, hF1⟩
      · rw [hF1, evalPoly_polyMul, evalPoly_polySub (polySub _ _), evalPoly_polySub, evalPoly_single,
          sub_sub, hm, sub_self, zero_mul]
      · rw [hF1, evalPoly_polyMul, evalPoly_polySub (polyAdd _ _), evalPoly_single,
          evalPoly_polyAdd pre.qLast, hm, sub_self, mul_zero]
  · intro j hj
    rw [helem, hF2, evalPoly_polyMul, evalPoly_polyMul, evalPoly_polySub, evalPoly_single]
    have ql := hf.qLast j hj
    unfold rowValue at ql hclose
    rw [ql]
    by_cases hju : j = d.usableRows
    · subst hju; rw [hclose]; simp
    · simp [hju]

theorem PermSetup.parts_pos (hS : PermSetup L A n d cs order gi delta mqc pre) (hcs : cs ≠ [])
    {σ : Equiv.Perm CellKey} (hf : PermFacts L n d cs gi delta mqc pre σ) : pre.parts ≠ 0 := by
  have hgi : gi.length ≠ 0 := by
    obtain ⟨c, cs', rfl⟩ := List.exists_cons_of_ne_nil hcs
    obtain ⟨i, hi, _⟩ := hf.cells c (by simp) c.1 (.inl rfl)
    intro h0
    rw [List.length_eq_zero_iff] at h0
    subst h0
    simp at hi
  intro h0
  have := hf.parts
  rw [h0] at this
  unfold permutationParts at this
  rw [if_neg hgi] at this
  split_ifs at this with h1 h2 h3
  · simp at this
  · simp only [Option.some.injEq] at this
    have h4 := Nat.div_add_mod gi.length (mqc - 1)
    rw [this, h3] at h4
    simp at h4
    omega
  · simp at this

/-- The prover succeeds when no denominator is zero. -/
theorem PermSetup.defined [DecidableEq F] (hS : PermSetup L A n d cs order gi delta mqc pre)
    (hcs : cs ≠ []) (ch : S → F × S) (st : S) (column : Nat → Option (List F))
    (cols : List (List F)) (hcols : gi.mapM column = some cols)
    (hden : ∀ i < gi.length, ∀ j < 2 ^ n, rowValue L n (pre.sSigma.getD i []) j * (ch st).1 +
      (rowValue L n (cols.getD i []) j + (ch (ch st).2).1) ≠ 0) :
    ∃ r, permProve ch L n pre column gi st = some r := by
  obtain ⟨σ, hf⟩ := hS.facts
  have hr := hS.rows
  have hu := hS.usable
  have hcl := length_mapM _ _ _ hcols
  have hpos := hS.parts_pos hcs hf
  set beta := (ch st).1 with hbeta
  set gamma := (ch (ch st).2).1 with hgamma
  set gv := List.zipWith (permFactor beta gamma) pre.sId cols with hgv
  set hv := List.zipWith (permFactor beta gamma) pre.sSigma cols with hhv
  have hgl : gv.length = gi.length := by simp [hgv, hf.sIdLen, hcl]
  have hhl : hv.length = gi.length := by simp [hhv, hf.sSigmaLen, hcl]
  set gs := (groupFactors pre.mqc gv []).map polyProduct with hgs
  set hs := (groupFactors pre.mqc hv []).map polyProduct with hhs
  have hgsl : gs.length = pre.parts := by
    rw [hgs, List.length_map]
    apply groupFactors_parts
    rw [hgl, hf.mqcEq, hf.parts]
  have hhsl : hs.length = pre.parts := by
    rw [hhs, List.length_map]
    apply groupFactors_parts
    rw [hhl, hf.mqcEq, hf.parts]
  have hH : ∀ j < 2 ^ n, (hv.map (rowValue L n · j)).prod ≠ 0 := by
    intro j hj
    rw [hhv, row_factors beta gamma _ _ hf.sSigmaLen hcl j
      (fun i => rowValue L n (pre.sSigma.getD i []) j) (fun i => rowValue L n (cols.getD i []) j)
      (fun _ _ => rfl) (fun _ _ => rfl), Finset.prod_ne_zero_iff]
    intro i hi
    rw [Finset.mem_range] at hi
    exact hden i hi j hj
  have hH' : ∀ h ∈ hs, ∀ j < 2 ^ n, rowValue L n h j ≠ 0 := by
    intro h hh j hj h0
    apply hH j hj
    have := groupFactors_prod pre.mqc hv [] ((L.domain n).elem j)
    simp only [List.map_nil, List.prod_nil, one_mul] at this
    unfold rowValue
    rw [← this, List.prod_eq_zero_iff, List.mem_map]
    exact ⟨h, hh, h0⟩
  obtain ⟨rest, hrest⟩ := runningProduct_defined (rowProduct L n gv) (rowProduct L n hv) (2 ^ n - 1)
    0 1 (fun i hi => by rw [Nat.zero_add, rowProduct_eq]; exact hH i (by omega))
  have hlen : (1 :: rest).length = 2 ^ n := by
    rw [List.length_cons, (runningProduct_spec _ _ _ _ _ _ hrest).1]
    have := Nat.two_pow_pos n
    omega
  unfold permProve
  simp only [hcols, Option.bind_eq_bind, Option.bind_some]
  rw [if_neg (by rw [hf.sIdLen, hf.sSigmaLen]; simp)]
  rw [← hbeta, ← hgamma, ← hgv, ← hhv, ← hgs, ← hhs, hrest, Option.bind_some,
    if_neg (by rw [hgsl, hhsl]; simp [hpos])]
  by_cases hp : pre.parts = 1
  · rw [if_pos hp, List.getElem?_eq_getElem (show 0 < gs.length by omega),
      List.getElem?_eq_getElem (show 0 < hs.length by omega)]
    exact ⟨_, rfl⟩
  · rw [if_neg hp]
    obtain ⟨r, hpl⟩ := partLoop_defined (L := L) n pre.usableRows
      ((gs.zip hs).zip (drawN ch (pre.parts - 1) (ch (ch st).2).2).1) (1 :: rest) (1 :: rest) []
      hlen hlen (by rw [hf.usableEq]; omega) (by
        intro t ht j hj
        apply hH' _ _ j (by rw [hf.usableEq] at hj; omega)
        obtain ⟨⟨g, h⟩, a⟩ := t
        exact (List.of_mem_zip (List.of_mem_zip ht).1).2)
    rw [hpl, length_drawN, List.getElem?_eq_getElem (show pre.parts - 1 < gs.length by omega),
      List.getElem?_eq_getElem (show pre.parts - 1 < hs.length by omega)]
    exact ⟨_, rfl⟩

/-! ## soundness -/

/-- The values the verifier computes at a row. -/
theorem verifyGroups_row {σ : Equiv.Perm CellKey} (hf : PermFacts L n d cs gi delta mqc pre σ)
    (beta gamma : F) (cols : List (List F)) (j : Nat)
    (ghs : List (F × F))
    (hghs : ghs = verifyGroups beta gamma pre.mqc
      (((pre.sId.map (evalPoly · (L.root n ^ j))).zip (pre.sSigma.map (evalPoly · (L.root n ^ j)))).zip
        (cols.map (evalPoly · (L.root n ^ j)))) 1 1 0) (hcl : cols.length = gi.length) :
    ghs.length = pre.parts ∧
      (ghs.map (·.1)).prod =
        ((List.zipWith (permFactor beta gamma) pre.sId cols).map (rowValue L n · j)).prod ∧
      (ghs.map (·.2)).prod =
        ((List.zipWith (permFactor beta gamma) pre.sSigma cols).map (rowValue L n · j)).prod := by
  set y := L.root n ^ j with hy
  set gv := List.zipWith (permFactor beta gamma) pre.sId cols with hgv
  set hv := List.zipWith (permFactor beta gamma) pre.sSigma cols with hhv
  have hgl : gv.length = gi.length := by simp [hgv, hf.sIdLen, hcl]
  have hhl : hv.length = gi.length := by simp [hhv, hf.sSigmaLen, hcl]
  have h1 := verifyGroups_eq beta gamma pre.mqc y ((pre.sId.zip pre.sSigma).zip cols) [] [] rfl
  simp only [List.map_nil, List.prod_nil, List.length_nil] at h1
  rw [map_zip_zip, h1, ← zipWith_fst_zip (permFactor beta gamma) pre.sId pre.sSigma cols
      (by rw [hf.sIdLen, hf.sSigmaLen]),
    ← zipWith_snd_zip (permFactor beta gamma) pre.sId pre.sSigma cols
      (by rw [hf.sIdLen, hf.sSigmaLen]), ← hgv, ← hhv] at hghs
  have hgsl : (groupFactors pre.mqc gv []).length = pre.parts := by
    apply groupFactors_parts
    rw [hgl, hf.mqcEq, hf.parts]
  have hhsl : (groupFactors pre.mqc hv []).length = pre.parts := by
    apply groupFactors_parts
    rw [hhl, hf.mqcEq, hf.parts]
  have hrow : ∀ p, rowValue L n p j = evalPoly p y := by
    intro p; simp [rowValue, FftLib.domain, hy]
  refine ⟨by rw [hghs]; simp [hgsl, hhsl], ?_, ?_⟩
  · rw [hghs, List.map_fst_zip (by simp [hgsl, hhsl]), groupFactors_prod]
    simp only [List.map_nil, List.prod_nil, one_mul, hrow]
  · rw [hghs, List.map_snd_zip (by simp [hgsl, hhsl]), groupFactors_prod]
    simp only [List.map_nil, List.prod_nil, one_mul, hrow]

/-- The step the verifier enforces at each usable row gives the copy constraints, outside of few
challenges. -/
theorem PermSetup.sound_steps (hS : PermSetup L A n d cs order gi delta mqc pre)
    (hdelta : ∀ m, 0 < m → m < gi.length → delta ^ (2 ^ n * m) ≠ 1) (hd0 : delta ≠ 0)
    (column : Nat → Option (List F)) (cols : List (List F)) (hcols : gi.mapM column = some cols) :
    ∃ badBeta : Finset F, badBeta.card ≤ gi.length * d.usableRows ∧ ∀ beta ∉ badBeta,
      ∃ badGamma : Finset F, badGamma.card ≤ 2 * (gi.length * d.usableRows) ∧ ∀ gamma ∉ badGamma,
        ∀ v : Nat → F, v 0 = 1 → (v d.usableRows = 0 ∨ v d.usableRows = 1) →
          (∀ j < d.usableRows,
            v (j + 1) * ((List.zipWith (permFactor beta gamma) pre.sSigma cols).map
              (rowValue L n · j)).prod =
            v j * ((List.zipWith (permFactor beta gamma) pre.sId cols).map
              (rowValue L n · j)).prod) →
          CopiesHold d cs (columnValue L n column) := by
  obtain ⟨σ, hf⟩ := hS.facts
  have hcard := card_permCells_le gi d.usableRows
  obtain ⟨bb, hbb, hb⟩ := grandProduct_sound (permCells gi d.usableRows) σ hf.support
    (cellId L n gi delta) (cellVal L n column) (hS.ident_injOn hf hdelta hd0)
  refine ⟨bb, by omega, fun beta hbeta => ?_⟩
  obtain ⟨bg, hbg, hg⟩ := hb beta hbeta
  refine ⟨bg, by omega, fun gamma hgamma => ?_⟩
  obtain ⟨hne, himp⟩ := hg gamma hgamma
  intro v hv0 hvu hstep
  have htot := runningProduct_total _ _ v d.usableRows hstep
  obtain ⟨p1, p2⟩ := hS.products hf column cols hcols beta gamma
  rw [p1, p2, hv0, one_mul] at htot
  rw [← hS.invariant_iff hf column]
  apply himp
  rcases hvu with h0 | h1
  · rw [h0, zero_mul] at htot
    exact absurd htot.symm hne
  · rw [h1, one_mul] at htot
    exact htot.symm

/-- Two runs of the loop over the parts that differ in one challenge. -/
theorem verifyParts_set : ∀ (alphas : List F) (ghs : List (F × F)) (parts : List F) (prev f1 f1' : F)
    (r r' : F × F) (i : Nat) (a : F), i < alphas.length → ghs.length = alphas.length + 1 →
    parts.length = alphas.length →
    verifyParts ghs alphas parts prev f1 = some r →
    verifyParts ghs (alphas.set i a) parts prev f1' = some r' →
    r.2 = r'.2 ∧ r.1 - f1 - (r'.1 - f1') = (alphas.getD i 0 - a) *
      ((prev :: parts).getD i 0 * (ghs.getD i (0, 0)).1 -
        (prev :: parts).getD (i + 1) 0 * (ghs.getD i (0, 0)).2) := by
  have same : ∀ (alphas : List F) (ghs : List (F × F)) (parts : List F) (prev f1 f1' : F)
      (r r' : F × F), verifyParts ghs alphas parts prev f1 = some r →
      verifyParts ghs alphas parts prev f1' = some r' → r.2 = r'.2 ∧ r.1 - f1 = r'.1 - f1' := by
    intro alphas
    induction alphas with
    | nil =>
      intro ghs parts prev f1 f1' r r' h h'
      simp only [verifyParts, Option.some.injEq] at h h'
      subst h h'
      simp
    | cons alpha alphas ih =>
      intro ghs parts prev f1 f1' r r' h h'
      cases ghs with
      | nil => simp [verifyParts] at h
      | cons gh ghs =>
        cases parts with
        | nil => simp [verifyParts] at h
        | cons p parts =>
          simp only [verifyParts] at h h'
          obtain ⟨i1, i2⟩ := ih _ _ _ _ _ _ _ h h'
          exact ⟨i1, by linear_combination i2⟩
  intro alphas
  induction alphas with
  | nil => intro _ _ _ _ _ _ _ i _ hi; simp at hi
  | cons alpha alphas ih =>
    intro ghs parts prev f1 f1' r r' i a hi hg hp h h'
    cases ghs with
    | nil => simp at hg
    | cons gh ghs =>
      cases parts with
      | nil => simp at hp
      | cons p parts =>
        simp only [List.length_cons, Nat.add_right_cancel_iff] at hi hg hp
        cases i with
        | zero =>
          simp only [List.set_cons_zero, verifyParts] at h h'
          obtain ⟨i1, i2⟩ := same _ _ _ _ _ _ _ _ h h'
          refine ⟨i1, ?_⟩
          simp only [List.getD_cons_zero, List.getD_cons_succ]
          linear_combination i2
        | succ i =>
          simp only [List.set_cons_succ, verifyParts] at h h'
          obtain ⟨i1, i2⟩ := ih _ _ _ _ _ _ _ i a (by omega) hg hp h h'
          refine ⟨i1, ?_⟩
          simp only [List.getD_cons_succ] at i2 ⊢
          linear_combination i2

/-- When every part holds, the product over the parts telescopes. -/
theorem verifyParts_chain : ∀ (alphas : List F) (ghs : List (F × F)) (parts : List F) (prev f1 : F)
    (r : F × F), ghs.length = alphas.length + 1 → parts.length = alphas.length →
    verifyParts ghs alphas parts prev f1 = some r →
    (∀ i < alphas.length, (prev :: parts).getD i 0 * (ghs.getD i (0, 0)).1 =
        (prev :: parts).getD (i + 1) 0 * (ghs.getD i (0, 0)).2) →
    r.1 = f1 ∧ ∀ sh, r.2 * (ghs.getD alphas.length (0, 0)).1 =
      sh * (ghs.getD alphas.length (0, 0)).2 →
      sh * (ghs.map (·.2)).prod = prev * (ghs.map (·.1)).prod := by
  intro alphas
  induction alphas with
  | nil =>
    intro ghs parts prev f1 r hg hp h _
    simp only [verifyParts, Option.some.injEq] at h
    subst h
    obtain ⟨gh, rfl⟩ := List.length_eq_one_iff.1 hg
    refine ⟨rfl, fun sh hsh => ?_⟩
    simp at hsh ⊢
    exact hsh.symm
  | cons alpha alphas ih =>
    intro ghs parts prev f1 r hg hp h hc
    cases ghs with
    | nil => simp at hg
    | cons gh ghs =>
      cases parts with
      | nil => simp at hp
      | cons p parts =>
        simp only [List.length_cons, Nat.add_right_cancel_iff] at hg hp
        simp only [verifyParts] at h
        obtain ⟨i1, i2⟩ := ih _ _ _ _ _ hg hp h (fun i hi => by
          have := hc (i + 1) (by simp; omega)
          simpa using this)
        have h0 := hc 0 (by simp)
        simp only [List.getD_cons_zero, List.getD_cons_succ] at h0
        refine ⟨by rw [i1]; linear_combination alpha * h0, fun sh hsh => ?_⟩
        simp only [List.length_cons, List.getD_cons_succ] at hsh
        have := i2 sh hsh
        simp only [List.map_cons, List.prod_cons]
        linear_combination gh.2 * this - (ghs.map (·.1)).prod * h0

end

end Crypto3Zk
