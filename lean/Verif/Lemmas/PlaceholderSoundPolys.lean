import Verif.Props.Placeholder
import Verif.Lemmas.PlaceholderDegree

/-!
# The values of the verifier are those of polynomials

For every choice of the prover's polynomials (one part), the values that the three verifiers compute from
true evaluations at `y` are the values at `y` of polynomials that do not depend on `y`.
-/

set_option linter.unusedSectionVars false

namespace Crypto3Zk

open Polynomial

variable {F : Type} [Field F] [DecidableEq F]
variable {L : FftLib F} {A n : Nat}

/-! ## one bad value for each challenge of a linear combination -/

/-- For linear combinations with coefficients drawn one after the other: for each coefficient there is at
most one bad value, which depends on the earlier ones; otherwise, combinations that are zero everywhere have
zero terms. -/
theorem linear_bad {ι : Type} (N : Nat) (δ : Nat → ι → F) :
    ∃ bad : List F → Finset F, (∀ l, (bad l).card ≤ 1) ∧ ∀ alphas : List F, alphas.length = N →
      (∀ i a, alphas[i]? = some a → a ∉ bad (alphas.take i)) →
      (∀ x, ∑ i ∈ Finset.range N, alphas.getD i 0 * δ i x = 0) → ∀ i < N, ∀ x, δ i x = 0 := by
  classical
  by_cases hz : ∀ i < N, ∀ x, δ i x = 0
  · exact ⟨fun _ => ∅, by simp, fun _ _ _ _ => hz⟩
  push Not at hz
  -- the last index with a nonzero term
  obtain ⟨k, hk, hmax⟩ : ∃ k, (k < N ∧ ∃ x, δ k x ≠ 0) ∧ ∀ i, k < i → i < N → ∀ x, δ i x = 0 := by
    obtain ⟨i0, hi0, x0, hx0⟩ := hz
    have hne : ((Finset.range N).filter fun i => ∃ x, δ i x ≠ 0).Nonempty :=
      ⟨i0, Finset.mem_filter.2 ⟨Finset.mem_range.2 hi0, x0, hx0⟩⟩
    refine ⟨((Finset.range N).filter fun i => ∃ x, δ i x ≠ 0).max' hne, ?_, ?_⟩
    · have := Finset.max'_mem _ hne
      rw [Finset.mem_filter, Finset.mem_range] at this
      exact this
    · intro i hi hiN x
      by_contra hx
      have := Finset.le_max' ((Finset.range N).filter fun i => ∃ x, δ i x ≠ 0) i
        (Finset.mem_filter.2 ⟨Finset.mem_range.2 hiN, x, hx⟩)
      omega
  obtain ⟨hkN, x, hx⟩ := hk
  refine ⟨fun l => if l.length = k then
    {-(∑ i ∈ Finset.range k, l.getD i 0 * δ i x) / δ k x} else ∅, ?_, ?_⟩
  · intro l
    dsimp only
    split_ifs <;> simp
  · intro alphas hl hav hsum
    exfalso
    have ha := hav k (alphas[k]'(by omega)) (List.getElem?_eq_getElem (by omega))
    dsimp only at ha
    rw [if_pos (by rw [List.length_take]; omega), Finset.mem_singleton] at ha
    apply ha
    have h0 := hsum x
    have hsplit : ∑ i ∈ Finset.range N, alphas.getD i 0 * δ i x =
        ∑ i ∈ Finset.range (k + 1), alphas.getD i 0 * δ i x := by
      symm
      apply Finset.sum_subset
      · intro i hi
        rw [Finset.mem_range] at hi ⊢
        omega
      · intro i hi hi'
        rw [Finset.mem_range] at hi hi'
        rw [hmax i (by omega) hi x, mul_zero]
    rw [hsplit, Finset.sum_range_succ, List.getD_eq_getElem _ _ (by omega)] at h0
    have htake : ∑ i ∈ Finset.range k, (alphas.take k).getD i 0 * δ i x =
        ∑ i ∈ Finset.range k, alphas.getD i 0 * δ i x := by
      apply Finset.sum_congr rfl
      intro i hi
      rw [Finset.mem_range] at hi
      congr 1
      rw [List.getD_eq_getElem?_getD, List.getD_eq_getElem?_getD, List.getElem?_take_of_lt hi]
    rw [htake, eq_div_iff hx]
    linear_combination h0

/-! ## the permutation argument -/

theorem permVerify_polys {pre : PermData F} {s : Nat}
    (hid : ∀ p ∈ pre.sId, p.length ≤ 2 ^ n) (hsig : ∀ p ∈ pre.sSigma, p.length ≤ 2 ^ n)
    (hidl : pre.sId.length = s) (hsigl : pre.sSigma.length = s)
    (hql : pre.qLast.length ≤ 2 ^ n) (hqb : pre.qBlind.length ≤ 2 ^ n) (hl0 : pre.lagrange0.length ≤ 2 ^ n)
    (hparts : permutationParts s pre.mqc = some pre.parts) (hone : pre.parts = 1)
    (cols : List (List F)) (hcl : cols.length = s) (hcols : ∀ c ∈ cols, c.length ≤ 2 ^ n)
    (V : List F) (hV : V.length ≤ 2 ^ n) (beta gamma : F) :
    ∃ f0 f1 f2 : F[X], f0.natDegree ≤ 2 * (2 ^ n - 1) ∧ f1.natDegree ≤ (s + 2) * (2 ^ n - 1) ∧
      f2.natDegree ≤ 3 * (2 ^ n - 1) ∧
      ∀ (S : Type) (ch : S → F × S) (st : S) (y : F), (ch st).1 = beta → (ch (ch st).2).1 = gamma →
        permVerify ch pre.lagrange0 pre.mqc pre.parts (trueClaims L n pre cols V [] y) y st =
          some ((f0.eval y, f1.eval y, f2.eval y), (ch (ch st).2).2) := by
  obtain ⟨D, hD⟩ : ∃ D, D = 2 ^ n - 1 := ⟨_, rfl⟩
  have hpos : 0 < 2 ^ n := Nat.two_pow_pos n
  have hD1 : 2 ^ n = D + 1 := by omega
  rw [hD1] at hid hsig hql hqb hl0 hcols hV
  rw [← hD]
  set gz := List.zipWith (permFactor beta gamma) pre.sId cols with hgz
  set hz := List.zipWith (permFactor beta gamma) pre.sSigma cols with hhz
  have hgzl : gz.length = s := by simp [hgz, hidl, hcl]
  have hhzl : hz.length = s := by simp [hhz, hsigl, hcl]
  obtain ⟨g, hg⟩ := List.length_eq_one_iff.1 ((groupFactors_parts pre.mqc gz pre.parts (by rw [hgzl]; exact hparts)).trans hone)
  obtain ⟨h, hh⟩ := List.length_eq_one_iff.1 ((groupFactors_parts pre.mqc hz pre.parts (by rw [hhzl]; exact hparts)).trans hone)
  have hgd : (toPoly (polyProduct g)).natDegree ≤ s * D := by
    refine getElem?_group_degree (mqc := pre.mqc) (zipWith_permFactor_degree beta gamma hid hcols) (K := s) ?_ ?_
    · intro g' hg'
      have := ((groupFactors_sizes pre.mqc gz []).1 g' hg').1
      simp at this
      omega
    · rw [← hgz, hg]; simp
  have hhd : (toPoly (polyProduct h)).natDegree ≤ s * D := by
    refine getElem?_group_degree (mqc := pre.mqc) (zipWith_permFactor_degree beta gamma hsig hcols) (K := s) ?_ ?_
    · intro g' hg'
      have := ((groupFactors_sizes pre.mqc hz []).1 g' hg').1
      simp at this
      omega
    · rw [← hhz, hh]; simp
  have dV := toPoly_degree_le hV
  have dql := toPoly_degree_le hql
  have dqb := toPoly_degree_le hqb
  have dl0 := toPoly_degree_le hl0
  have dsh : (shiftDfs (L.root n) 1 (toPoly V)).natDegree ≤ D := shiftDfs_degree dV
  refine ⟨toPoly pre.lagrange0 * (1 - toPoly V),
    (toPoly (polyProduct h) * shiftDfs (L.root n) 1 (toPoly V) - toPoly (polyProduct g) * toPoly V) *
      (1 - toPoly pre.qLast - toPoly pre.qBlind),
    toPoly pre.qLast * (toPoly V * toPoly V - toPoly V), ?_, ?_, ?_, ?_⟩
  · exact natDegree_mul_of dl0 (natDegree_sub_of natDegree_one_of dV) (by omega)
  · have e : (s + 2) * D = s * D + D + D := by ring
    refine natDegree_mul_of (a := s * D + D) (natDegree_sub_of ?_ ?_)
      (natDegree_sub_of (natDegree_sub_of natDegree_one_of dql) dqb) (by omega)
    · exact natDegree_mul_of hhd dsh (le_refl _)
    · exact natDegree_mul_of hgd dV (le_refl _)
  · exact natDegree_mul_of dql (natDegree_sub_of (natDegree_mul_of dV dV (m := 2 * D) (by omega))
      (dV.trans (by omega))) (by omega)
  · intro S ch st y hb hg'
    have hgroups := verifyGroups_eq beta gamma pre.mqc y ((pre.sId.zip pre.sSigma).zip cols) [] [] rfl
    simp only [List.map_nil, List.prod_nil, List.length_nil] at hgroups
    rw [← zipWith_fst_zip (permFactor beta gamma) pre.sId pre.sSigma cols (by omega),
      ← zipWith_snd_zip (permFactor beta gamma) pre.sId pre.sSigma cols (by omega), ← hgz, ← hhz, hg, hh] at hgroups
    simp only [List.map_cons, List.map_nil, List.zip_cons_cons, List.zip_nil_right] at hgroups
    unfold permVerify trueClaims
    simp only [List.length_map]
    rw [if_neg (by omega), hb, hg', map_zip_zip, hgroups, hone]
    simp [drawN, shiftDfs_eval, eval_toPoly]

/-! ## the gate argument -/

theorem gateVerify_poly {usable mgd : Nat} {t : PlonkTable F} {gates : List (Gate F)}
    (h : GateSetup L A n usable t gates mgd) {dg : Nat}
    (hd : ∀ g ∈ gates, ∀ c ∈ g.constraints, c.degree ≤ dg) (theta : F) :
    ∃ f : F[X], f.natDegree ≤ (dg + 2) * (2 ^ n - 1) ∧
      ∀ (S : Type) (ch : S → F × S) (st : S) (y : F) (ev : Nat → Int → ColumnType → Option F),
        (ch st).1 = theta → TrueEvaluations L n t gates y ev →
        gateVerify ch gates ev ((rowMask L n usable).eval y) st = some (f.eval y, (ch st).2) := by
  have hmask : (rowMask L n usable).natDegree ≤ 2 ^ n - 1 := by
    unfold rowMask gateMask
    refine natDegree_sub_of (natDegree_sub_of natDegree_one_of (dfsPoly_degree_le h.lib h.small _ ?_))
      (dfsPoly_degree_le h.lib h.small _ ?_)
    · simp [lagrangeValues]
    · simp [blindValues]
  obtain ⟨p, hp⟩ := C34_prover_succeeds h (scripted (F := F)) (rowMask L n usable) [theta]
  refine ⟨p, gateProve_degree h.lib h.small (columns_length h.rect) hd hmask hp, ?_⟩
  intro S ch st y ev hth hev
  have := C33_gates h scripted _ p _ _ hp y ev hev
  unfold gateVerify at this ⊢
  simp only [scripted, List.headD_cons] at this
  dsimp only
  rw [hth]
  obtain ⟨f, hf, hf'⟩ := Option.bind_eq_some_iff.1 this
  simp only [Option.some.injEq, Prod.mk.injEq] at hf'
  simp only [Option.bind_eq_bind]
  rw [hf]
  simp [hf'.1]

/-! ## the lookup argument -/

theorem verifyPartProducts_single (p : Nat) : ∀ (xs : List F) (acc : F) (size : Nat), size < p →
    (xs.length + size = p → xs ≠ [] → verifyPartProducts [p] xs acc size = some [acc * xs.prod]) ∧
    (∀ gs, verifyPartProducts [p] xs acc size = some gs → gs.length = 1 → xs.length + size = p) := by
  intro xs
  induction xs with
  | nil =>
    intro acc size _
    refine ⟨fun _ h => absurd rfl h, fun gs h hl => ?_⟩
    simp only [verifyPartProducts] at h
    split_ifs at h
    simp only [Option.some.injEq] at h
    subst h
    simp at hl
  | cons x xs ih =>
    intro acc size hs
    simp only [verifyPartProducts, List.length_cons, List.prod_cons]
    by_cases hp : size + 1 = p
    · rw [if_pos hp]
      refine ⟨fun h _ => ?_, fun gs h hl => ?_⟩
      · obtain rfl : xs = [] := by rw [← List.length_eq_zero_iff]; omega
        simp [verifyPartProducts]
      · cases xs with
        | nil => simp; omega
        | cons x' xs => simp [verifyPartProducts] at h
    · rw [if_neg hp]
      obtain ⟨h1, h2⟩ := ih (acc * x) (size + 1) (by omega)
      refine ⟨fun h _ => ?_, fun gs h hl => ?_⟩
      · rw [h1 (by omega) (by rintro rfl; simp at h; omega)]
        rw [mul_assoc]
      · have := h2 gs h hl
        omega

/-- With one part of `p` factors, the grouping gives one product exactly if there are `p` factors. -/
theorem verifyPartProducts_one (p : Nat) (xs : List F) :
    (xs.length = p → p ≠ 0 → verifyPartProducts [p] xs 1 0 = some [xs.prod]) ∧
    (∀ gs, verifyPartProducts [p] xs 1 0 = some gs → gs.length = 1 → xs.length = p ∧ p ≠ 0) := by
  by_cases h0 : p = 0
  · subst h0
    refine ⟨fun _ h => absurd rfl h, fun gs h hl => ?_⟩
    exfalso
    have aux : ∀ (xs : List F) (acc : F) (size : Nat) (gs : List F),
        verifyPartProducts [0] xs acc size = some gs → gs = [] := by
      intro xs
      induction xs with
      | nil =>
        intro acc size gs h
        simp only [verifyPartProducts] at h
        split_ifs at h
        simpa using h.symm
      | cons x xs ih =>
        intro acc size gs h
        simp only [verifyPartProducts] at h
        rw [if_neg (by omega)] at h
        exact ih _ _ _ h
    rw [aux xs 1 0 gs h] at hl
    simp at hl
  · obtain ⟨h1, h2⟩ := verifyPartProducts_single p xs 1 0 (by omega)
    refine ⟨fun h _ => ?_, fun gs h hl => ⟨by simpa using h2 gs h hl, h0⟩⟩
    rw [h1 (by omega) (by rintro rfl; simp at h; omega), one_mul]

theorem lookupVerify_polys {t : PlonkTable F} {sys : LookupSystem F} {pre : LookupData F}
    (h : LookupSetup L A n t sys pre)
    (hd : ∀ g ∈ sys.gates, ∀ c ∈ g.constraints, ∀ e ∈ c.input, e.degree < 2 ^ 32)
    {p : Nat} (hone : sys.parts pre.mqc = [p]) (sorted : List (List F)) (hsl : ∀ c ∈ sorted, c.length = 2 ^ n)
    (V : List F) (hVl : V.length = 2 ^ n) (theta beta gamma : F) (alphas : List F) {K : Nat}
    (hK : ((sys.gates.flatMap fun g : LookupGate F => g.constraints.map fun k : LookupConstraint F => k.degree + 1) ++
      List.replicate sys.optionCount 3).sum ≤ K) :
    ∃ f0 f1 f2 f3 : F[X], f0.natDegree ≤ 2 * (2 ^ n - 1) ∧ f1.natDegree ≤ 3 * (2 ^ n - 1) ∧
      f2.natDegree ≤ (K + 2) * (2 ^ n - 1) ∧ f3.natDegree ≤ 2 * (2 ^ n - 1) ∧
      ∀ (S Com : Type) (ch : S → F × S) (absorb : Com → S → S) (com : Com) (st : S) (y : F)
        (ev : Nat → Int → ColumnType → Option F), TrueLookupEvaluations L n t sys y ev →
        (ch st).1 = theta → (ch (absorb com (ch st).2)).1 = beta →
        (ch (ch (absorb com (ch st).2)).2).1 = gamma →
        (drawN ch (sorted.length - 1) (ch (ch (absorb com (ch st).2)).2).2).1 = alphas →
        lookupVerify ch absorb com sys pre.mqc ev (trueLookupClaims L n pre sorted V [] y) st =
          if sys.inputCount + sys.optionCount = p ∧ sorted.length = p ∧ p ≠ 0 then
            some ((f0.eval y, f1.eval y, f2.eval y, f3.eval y),
              (drawN ch (sorted.length - 1) (ch (ch (absorb com (ch st).2)).2).2).2)
          else none := by
  have hL := h.lib
  have hn := h.small
  have ht := columns_length h.rect
  have hpos : 0 < 2 ^ n := Nat.two_pow_pos n
  have hql : pre.qLast.natDegree ≤ 2 ^ n - 1 := by
    rw [h.qLast]; exact dfsPoly_degree_le hL hn _ (by simp [lagrangeValues])
  have hqb : pre.qBlind.natDegree ≤ 2 ^ n - 1 := by
    rw [h.qBlind]; exact dfsPoly_degree_le hL hn _ (by simp [blindValues])
  have hl0 : pre.lagrange0.natDegree ≤ 2 ^ n - 1 := by
    rw [h.lagrange0]; exact dfsPoly_degree_le hL hn _ (by simp [lagrangeValues])
  have hV := dfsPoly_degree_le (L := L) hL hn _ hVl
  have hmask : (1 - pre.qLast - pre.qBlind).natDegree ≤ 2 ^ n - 1 :=
    natDegree_sub_of (natDegree_sub_of natDegree_one_of hql) hqb
  obtain ⟨values, hvals, hvale⟩ := lookupValues_eval (L := L) (n := n) h.inTable theta
    (1 - pre.qLast - pre.qBlind)
  obtain ⟨inputs, hinps, hinpe⟩ := lookupInputs_eval (L := L) (n := n) h.inTable theta
  have hgd : (dfsProduct (gFactors (L.root n) inputs values beta gamma)).natDegree ≤ K * (2 ^ n - 1) := by
    refine (dfsProduct_degree (r := (sys.gates.flatMap fun g : LookupGate F => g.constraints.map fun k : LookupConstraint F => k.degree + 1) ++
      List.replicate sys.optionCount 3) ?_).trans (Nat.mul_le_mul_right _ hK)
    unfold gFactors
    have h1 := lookupInputs_degree hL hn ht hd hinps
    have h2 := lookupValues_degree hL hn ht hmask hvals
    rw [List.map_flatMap] at h1
    simp only [List.map_map] at h1
    refine List.rel_append ?_ ?_
    · refine List.forall₂_map_left_iff.2 (h1.imp ?_)
      intro p c hpc
      exact natDegree_C_mul_of (natDegree_add_of natDegree_C_of hpc)
    · refine List.forall₂_map_left_iff.2 (h2.imp ?_)
      intro p c hpc
      exact natDegree_add_of (natDegree_add_of natDegree_C_of hpc) (natDegree_C_mul_of (shiftDfs_degree hpc))
  -- the products of the sorted columns matter only if there is the right number of them
  have hhd : sys.inputCount + sys.optionCount = p ∧ sorted.length = p ∧ p ≠ 0 →
      (dfsProduct (hFactors (L.root n) (sorted.map (dfsPoly L)) beta gamma)).natDegree ≤ K * (2 ^ n - 1) := by
    rintro ⟨e1, e2, -⟩
    have hc : sorted.length ≤ K := by
      refine le_trans ?_ hK
      have : ∀ l : List Nat, (∀ x ∈ l, 1 ≤ x) → l.length ≤ l.sum := by
        intro l
        induction l with
        | nil => simp
        | cons x l ih =>
          intro hx
          have h1 := ih fun y hy => hx y (by simp [hy])
          have h2 := hx x (by simp)
          simp only [List.length_cons, List.sum_cons]
          omega
      refine le_trans (le_of_eq ?_) (this _ ?_)
      · rw [e2, ← e1]
        simp [LookupSystem.inputCount, List.length_flatMap]
      · intro x hx
        rcases List.mem_append.1 hx with hx | hx
        · obtain ⟨g, -, hx⟩ := List.mem_flatMap.1 hx
          obtain ⟨k, -, rfl⟩ := List.mem_map.1 hx
          omega
        · rw [(List.mem_replicate.1 hx).2]
          omega
    unfold dfsProduct
    rw [← List.prod_eq_foldl]
    refine (list_prod_degree (m := 2 ^ n - 1) _ ?_).trans (Nat.mul_le_mul_right _ ?_)
    · intro q hq
      unfold hFactors at hq
      obtain ⟨q', hq', rfl⟩ := List.mem_map.1 hq
      obtain ⟨col, hcol, rfl⟩ := List.mem_map.1 hq'
      have hcd := dfsPoly_degree_le (L := L) hL hn col (hsl col hcol)
      exact natDegree_add_of (natDegree_add_of natDegree_C_of hcd) (natDegree_C_mul_of (shiftDfs_degree hcd))
    · simpa [hFactors] using hc
  have hgl : (gFactors (L.root n) inputs values beta gamma).length = sys.inputCount + sys.optionCount := by
    have e1 := congrArg List.length (hinpe 0)
    have e2 := congrArg List.length (hvale 0)
    have e3 := sum_zipIdx sys.tables 0 fun tab => tab.options.length
    simp only [List.length_map, inputsAt, valuesAt, List.length_flatMap] at e1 e2
    simp only [gFactors, List.length_append, List.length_map, LookupSystem.inputCount,
      LookupSystem.optionCount]
    omega
  have hKD : (K + 2) * (2 ^ n - 1) = K * (2 ^ n - 1) + (2 ^ n - 1) + (2 ^ n - 1) := by ring
  have hm : ∀ z, 1 - (pre.qLast.eval z + pre.qBlind.eval z) = (1 - pre.qLast - pre.qBlind).eval z := by
    intro z; simp only [eval_sub, eval_one]; ring
  have hstep : ∀ (S Com : Type) (ch : S → F × S) (absorb : Com → S → S) (com : Com) (st : S) (y : F)
      (ev : Nat → Int → ColumnType → Option F), TrueLookupEvaluations L n t sys y ev →
      (ch st).1 = theta → (ch (absorb com (ch st).2)).1 = beta →
      (ch (ch (absorb com (ch st).2)).2).1 = gamma →
      (drawN ch (sorted.length - 1) (ch (ch (absorb com (ch st).2)).2).2).1 = alphas →
      lookupVerify ch absorb com sys pre.mqc ev (trueLookupClaims L n pre sorted V [] y) st =
        (verifyPartProducts [p] ((gFactors (L.root n) inputs values beta gamma).map (eval y)) 1 0).bind fun gs =>
        (verifyPartProducts [p] ((hFactors (L.root n) (sorted.map (dfsPoly L)) beta gamma).map (eval y))
          1 0).bind fun hs =>
        if gs.length ≠ 0 + 1 ∨ hs.length ≠ 0 + 1 then none
        else (gs[0]?).bind fun g => (hs[0]?).bind fun h' =>
          some (((1 - (dfsPoly L V).eval y) * pre.lagrange0.eval y,
            pre.qLast.eval y * ((dfsPoly L V).eval y * (dfsPoly L V).eval y - (dfsPoly L V).eval y),
            (1 - pre.qLast - pre.qBlind).eval y * ((dfsPoly L V).eval (L.root n * y) * h' -
              (dfsPoly L V).eval y * g),
            (overlapSum L n pre.usable pre.lagrange0 sorted alphas).eval y),
            (drawN ch (sorted.length - 1) (ch (ch (absorb com (ch st).2)).2).2).2) := by
    intro S Com ch absorb com st y ev hev h1 h2 h3 h4
    have hvv := verifyValues_eq ev sys theta (1 - (pre.qLast.eval y + pre.qBlind.eval y))
      (1 - (pre.qLast.eval (L.root n * y) + pre.qBlind.eval (L.root n * y)))
      (fun i => (columnPoly L t i .selector).eval y) (fun i => (columnPoly L t i .selector).eval (L.root n * y))
      (fun i => (columnPoly L t i .constant).eval y) (fun i => (columnPoly L t i .constant).eval (L.root n * y))
      (fun tab htab o ho => ((h.inTable.2 tab htab).2 o ho).1) (fun tab htab => by
        have h0 := hev.1 tab htab 0 (Or.inl rfl)
        have h1 := hev.1 tab htab 1 (Or.inr rfl)
        simp only [zpow_zero, one_mul, zpow_one] at h0 h1
        exact ⟨h0.1, h1.1, fun o ho c hc => ⟨h0.2 o ho c hc, h1.2 o ho c hc⟩⟩)
    simp only [hm] at hvv
    rw [← hvale y, ← hvale (L.root n * y)] at hvv
    have hvi := verifyInputs_eq ev sys theta (fun v => (varPoly L n t v).eval y) (fun g hg => by
      obtain ⟨h0, h1⟩ := hev.2 g hg
      refine ⟨?_, fun c hc e he v hv => ?_⟩
      · rw [h0, varPoly, shiftDfs_eval]; simp
      · rw [h1 c hc e he v hv, varPoly, shiftDfs_eval])
    rw [← hinpe y] at hvi
    unfold lookupVerify
    simp only [trueLookupClaims, List.length_map]
    rw [h1]
    simp only [hm]
    rw [hvv]
    simp only [Option.bind_eq_bind, Option.bind_some]
    rw [hvi]
    simp only [Option.bind_some]
    rw [hone, h2, h3]
    simp only [List.length_cons, List.length_nil, Nat.zero_add, Nat.sub_self, drawN, List.map_nil]
    rw [h4, overlapSum_eval, zero_add, gFactors_eval, hFactors_eval, List.map_map, List.map_map]
    simp [Function.comp_def]
  by_cases hdef : sys.inputCount + sys.optionCount = p ∧ sorted.length = p ∧ p ≠ 0
  swap
  · refine ⟨0, 0, 0, 0, by simp, by simp, by simp, by simp, ?_⟩
    intro S Com ch absorb com st y ev hev h1 h2 h3 h4
    rw [if_neg hdef, hstep S Com ch absorb com st y ev hev h1 h2 h3 h4]
    apply Option.eq_none_iff_forall_ne_some.2
    intro r hr
    obtain ⟨gs, hgs, hr⟩ := Option.bind_eq_some_iff.1 hr
    obtain ⟨hs, hhs, hr⟩ := Option.bind_eq_some_iff.1 hr
    split_ifs at hr with hl
    push Not at hl
    obtain ⟨e1, e2⟩ := (verifyPartProducts_one p _).2 gs hgs hl.1
    obtain ⟨e3, -⟩ := (verifyPartProducts_one p _).2 hs hhs hl.2
    rw [List.length_map, hgl] at e1
    exact hdef ⟨e1, by simpa [hFactors] using e3, e2⟩
  · refine ⟨(1 - dfsPoly L V) * pre.lagrange0,
      pre.qLast * (dfsPoly L V * dfsPoly L V - dfsPoly L V),
      (1 - pre.qLast - pre.qBlind) * (shiftDfs (L.root n) 1 (dfsPoly L V) *
          dfsProduct (hFactors (L.root n) (sorted.map (dfsPoly L)) beta gamma) -
        dfsPoly L V * dfsProduct (gFactors (L.root n) inputs values beta gamma)),
      overlapSum L n pre.usable pre.lagrange0 sorted alphas, ?_, ?_, ?_, ?_, ?_⟩
    · exact natDegree_mul_of (natDegree_sub_of natDegree_one_of hV) hl0 (by omega)
    · exact natDegree_mul_of hql (natDegree_sub_of (natDegree_mul_of hV hV (m := 2 * (2 ^ n - 1)) (by omega))
        (hV.trans (by omega))) (by omega)
    · refine natDegree_mul_of hmask (b := K * (2 ^ n - 1) + (2 ^ n - 1)) (natDegree_sub_of ?_ ?_) (by omega)
      · exact natDegree_mul_of (shiftDfs_degree hV) (hhd hdef) (by omega)
      · exact natDegree_mul_of hV hgd (by omega)
    · exact overlapSum_degree hL hn _ hl0 _ _ hsl
    · intro S Com ch absorb com st y ev hev h1 h2 h3 h4
      rw [if_pos hdef, hstep S Com ch absorb com st y ev hev h1 h2 h3 h4,
        (verifyPartProducts_one p _).1 (by rw [List.length_map, hgl]; exact hdef.1) hdef.2.2,
        (verifyPartProducts_one p _).1 (by simpa [hFactors] using hdef.2.1) hdef.2.2]
      simp [shiftDfs_eval, dfsProduct_eval]

end Crypto3Zk
