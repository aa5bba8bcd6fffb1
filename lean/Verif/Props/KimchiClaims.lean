import Mathlib.Algebra.Polynomial.Roots
import Verif.Spec.KimchiClaims
import Verif.Props.KimchiPedersenExample

/-!
# C76: the single claims of a batch
-/

set_option linter.unusedSectionVars false

namespace Crypto3Zk

open Polynomial

variable {F : Type} [Field F] {G : Type} [AddCommGroup G] [Module F G] [DecidableEq F] [DecidableEq G]

/-- what `combined_inner_product` computes from the rows -/
theorem ipaCombined_rows (points : List F) (xi r : F) (n : Nat) (es : List (IpaEval F G))
    (rows : List (List (List F))) (h : es.mapM (IpaEval.rows points n) = some rows) (s : F × F) :
    ipaCombined points xi r n (es.map fun e => (e, if e.commit.shifted ≠ 0 then e.bound else -1)) s =
      some (s.1 + s.2 * powSum xi (rows.flatten.map fun row => hornerEval row r),
        s.2 * xi ^ rows.flatten.length) := by
  induction es generalizing rows s with
  | nil =>
    simp only [List.mapM_nil, Option.pure_def, Option.some.injEq] at h
    subst h
    simp [ipaCombined, powSum]
  | cons e es ih =>
    simp only [List.mapM_cons, Option.bind_eq_bind, Option.bind_eq_some_iff, Option.pure_def,
      Option.some.injEq] at h
    obtain ⟨row, h1, rest, h2, rfl⟩ := h
    rw [IpaEval.rows, Option.bind_eq_bind, Option.bind_eq_some_iff] at h1
    obtain ⟨evals, he, h1⟩ := h1
    rw [List.map_cons, ipaCombined, he]
    simp only [Option.bind_eq_bind, Option.bind_some]
    rw [foldl_powSum (fun ev => hornerEval ev r) xi evals s]
    by_cases hb : e.commit.shifted ≠ 0 ∧ e.bound ≠ -1
    · rw [if_pos hb] at h1
      simp only [Option.bind_eq_bind, Option.bind_eq_some_iff, Option.pure_def,
        Option.some.injEq] at h1
      obtain ⟨last, h3, shifted, h4, rfl⟩ := h1
      rw [if_pos hb.1, if_pos hb.2, h3, Option.bind_some]
      simp only [Option.pure_def]
      simp only [h4, Option.bind_some]
      rw [ih rest h2]
      simp only [List.flatten_cons, List.append_assoc, List.map_append, List.map_cons, powSum_append,
        List.length_append, List.length_map, List.singleton_append, List.length_cons, powSum, smul_eq_mul]
      congr 1
      ext
      · simp only; ring
      · simp only; ring
    · rw [if_neg hb] at h1
      obtain rfl := Option.some.inj h1
      have hm : ¬ ((if e.commit.shifted ≠ 0 then e.bound else -1) ≠ -1) := by
        intro h'
        by_cases h5 : e.commit.shifted ≠ 0
        · rw [if_pos h5] at h'
          exact hb ⟨h5, h'⟩
        · rw [if_neg h5] at h'
          exact h' rfl
      rw [if_neg hm, ih rest h2]
      simp only [List.flatten_cons, List.map_append, powSum_append, List.length_append, List.length_map,
        smul_eq_mul]
      congr 1
      ext
      · simp only; ring
      · simp only; ring

/-- a sum of powers whose terms are not all zero vanishes for few arguments only -/
theorem powSum_few_zeros (l : List F) (i : Nat) (hi : i < l.length) (hne : l[i] ≠ 0) :
    ∃ bad : Finset F, bad.card ≤ l.length - 1 ∧ ∀ x ∉ bad, powSum x l ≠ 0 := by
  let p : List F → F[X] := fun l => l.foldr (fun c q => C c + X * q) 0
  have hev : ∀ (l : List F) (x : F), (p l).eval x = powSum x l := by
    intro l x
    induction l with
    | nil => simp [p, powSum]
    | cons c l ih =>
      have : p (c :: l) = C c + X * p l := rfl
      rw [this, powSum, smul_eq_mul, ← ih]
      simp
  have hco : ∀ (l : List F) (i : Nat), (p l).coeff i = l.getD i 0 := by
    intro l
    induction l with
    | nil => intro i; simp [p]
    | cons c l ih =>
      intro i
      have : p (c :: l) = C c + X * p l := rfl
      rw [this]
      cases i with
      | zero => simp
      | succ i => simp [coeff_X_mul, ih, coeff_C_succ]
  have h0 : p l ≠ 0 := by
    intro h
    have := hco l i
    rw [h, coeff_zero, List.getD_eq_getElem _ _ hi] at this
    exact hne this.symm
  have hdeg : (p l).natDegree ≤ l.length - 1 := by
    rw [natDegree_le_iff_coeff_eq_zero]
    intro j hj
    rw [hco, List.getD_eq_default _ _ (by omega)]
  refine ⟨(p l).roots.toFinset, (Multiset.toFinset_card_le _).trans ((card_roots' _).trans hdeg), ?_⟩
  intro x hx hz
  exact hx (Multiset.mem_toFinset.2 ((mem_roots h0).2 (by rw [IsRoot, hev, hz])))

/-- the combination of polynomials and blinders -/
theorem combined_opening (g : List G) (h : G) (xi : F) : ∀ ps : List (List F × F),
    (∀ p ∈ ps, p.1.length = g.length) →
    ∃ (a : List F) (ρ : F), a.length = g.length ∧
      powSum xi (ps.map fun p => lin p.1 g + p.2 • h) = lin a g + ρ • h ∧
      ∀ x, hornerEval a x = powSum xi (ps.map fun p => hornerEval p.1 x)
  | [], _ => ⟨List.replicate g.length 0, 0, by simp, by simp [powSum, lin_zero_left], fun x => by
      have : ∀ n, hornerEval (List.replicate n (0 : F)) x = 0 := by
        intro n
        induction n with
        | zero => rfl
        | succ n ih =>
          have : hornerEval (List.replicate (n + 1) (0 : F)) x =
              0 + x * hornerEval (List.replicate n (0 : F)) x := rfl
          rw [this, ih]
          simp
      simp [this, powSum]⟩
  | p :: ps, hl => by
    obtain ⟨a, ρ, h1, h2, h3⟩ := combined_opening g h xi ps fun q hq => hl q (List.mem_cons_of_mem _ hq)
    have hp := hl p (List.mem_cons_self ..)
    refine ⟨List.zipWith (· + ·) p.1 (a.map fun x => x * xi), p.2 + xi * ρ, by simp [hp, h1], ?_, ?_⟩
    · rw [List.map_cons, powSum, h2, lin_add_left _ _ _ (by simp [hp, h1]), lin_map_mul]
      module
    · intro x
      rw [horner_powSum, powSum_zipAdd _ _ _ (by simp [hp, h1]), List.map_cons, powSum, ← h3,
        horner_powSum, horner_powSum]
      congr 1
      have := powSum_smul (F := F) x xi a
      simp only [smul_eq_mul] at this
      rw [this, smul_eq_mul, mul_comm]

theorem powSum_sub (x : F) : ∀ l m : List F, l.length = m.length →
    powSum x (List.zipWith (· - ·) l m) = powSum x l - powSum x m
  | [], [], _ => by simp [powSum]
  | v :: l, w :: m, h => by
    rw [List.zipWith_cons_cons, powSum, powSum_sub x l m (by simpa using h), powSum, powSum]
    simp only [smul_eq_mul]
    ring

/-- exchanging the two sums -/
theorem powSum_powSum (x y : F) (ps : List (List F × F)) : ∀ points : List F,
    powSum y (points.map fun z => powSum x (ps.map fun p => hornerEval p.1 z)) =
      powSum x (ps.map fun p => powSum y (points.map fun z => hornerEval p.1 z)) := by
  intro points
  induction points with
  | nil =>
    simp only [List.map_nil, powSum]
    induction ps with
    | nil => rfl
    | cons p ps ih => rw [List.map_cons, powSum, ← ih]; simp
  | cons z points ih =>
    rw [List.map_cons, powSum, ih]
    clear ih
    induction ps with
    | nil => simp [powSum]
    | cons p ps ih =>
      simp only [List.map_cons, powSum, smul_eq_mul] at ih ⊢
      linear_combination x * ih

/-- C76, partial: single claims are binding. Let every commitment of the batch be one to a polynomial of
`ps`, and let the claim on commitment `i` at point `j` be false. Then for all but `points - 1` values of
`r`, and for each of these for all but `commitments - 1` values of `xi`, there is no tree of transcripts
that satisfies both equations of the verifier. -/
theorem C76_individual_claims_partial (prm : IpaParams G) (es : List (IpaEval F G)) (points : List F)
    (k : Nat) (hk : prm.g.length = 2 ^ k) (ps : List (List F × F))
    (hps : ∀ p ∈ ps, p.1.length = prm.g.length)
    (hcomm : es.flatMap IpaEval.comms = ps.map fun p => lin p.1 prm.g + p.2 • prm.h)
    (rows : List (List (List F))) (hrows : es.mapM (IpaEval.rows points prm.g.length) = some rows)
    (hlen : rows.flatten.length = ps.length) (hpt : ∀ row ∈ rows.flatten, row.length = points.length)
    (i j : Nat) (row : List F) (v z : F) (p : List F × F) (hi : rows.flatten[i]? = some row)
    (hv : row[j]? = some v) (hp : ps[i]? = some p) (hz : points[j]? = some z)
    (hfalse : v ≠ hornerEval p.1 z) :
    ∃ badR : Finset F, badR.card ≤ points.length - 1 ∧ ∀ r ∉ badR,
      ∃ badXi : Finset F, badXi.card ≤ ps.length - 1 ∧ ∀ xi ∉ badXi,
        ∀ u, NoRelation F prm.g u prm.h → ∀ t : IpaTree F G k, t.Distinct →
          ¬ t.AllPaths (AcceptedRun prm es points xi r u) := by
  obtain ⟨hi', rfl⟩ := List.getElem?_eq_some_iff.1 hi
  obtain ⟨hi2, rfl⟩ := List.getElem?_eq_some_iff.1 hp
  obtain ⟨hj, rfl⟩ := List.getElem?_eq_some_iff.1 hv
  obtain ⟨hj2, rfl⟩ := List.getElem?_eq_some_iff.1 hz
  have hrl := hpt _ (List.getElem_mem hi')
  obtain ⟨badR, hb1, hb2⟩ := powSum_few_zeros
    (List.zipWith (· - ·) rows.flatten[i] (points.map fun z => hornerEval ps[i].1 z)) j
    (by simp only [List.length_zipWith, List.length_map]; omega) (by
      rw [List.getElem_zipWith, List.getElem_map]
      exact sub_ne_zero.2 hfalse)
  refine ⟨badR, hb1.trans (by simp only [List.length_zipWith, List.length_map]; omega), fun r hr => ?_⟩
  have hr1 := hb2 r hr
  rw [powSum_sub _ _ _ (by simp [hrl])] at hr1
  obtain ⟨badXi, hc1, hc2⟩ := powSum_few_zeros
    (List.zipWith (· - ·) (rows.flatten.map fun row => hornerEval row r)
      (ps.map fun p => powSum r (points.map fun z => hornerEval p.1 z))) i
    (by simp only [List.length_zipWith, List.length_map]; omega) (by
      rw [List.getElem_zipWith, List.getElem_map, List.getElem_map, horner_powSum]
      exact hr1)
  refine ⟨badXi, hc1.trans (by simp only [List.length_zipWith, List.length_map]; omega),
    fun xi hxi u hu t hd ht => ?_⟩
  obtain ⟨a, ρ, ha, hP, hev⟩ := combined_opening prm.g prm.h xi ps hps
  have hcip := ipaCombined_rows points xi r prm.g.length es rows hrows (0, 1)
  have h1 := C76_evaluation_binding_partial prm es points xi r u k hk hu t hd ht a ρ ha
    (by rw [hcomm]; exact hP) _ _ hcip
  refine hc2 xi hxi ?_
  rw [powSum_sub _ _ _ (by rw [List.length_map, List.length_map, hlen]), sub_eq_zero, ← powSum_powSum]
  simp only [zero_add, one_mul] at h1
  rw [h1]
  congr 1
  apply List.map_congr_left
  intro x _
  exact hev x

/-- two commitments, two points: the second one has the value 4 at 3, claimed is 5 -/
def exClaims : List (IpaEval ℚ exV) :=
  [⟨⟨[(3 : ℚ) • exE 0 + (5 : ℚ) • exE 1], 0⟩, [[13], [18]], -1⟩,
   ⟨⟨[(1 : ℚ) • exE 0 + (1 : ℚ) • exE 1], 0⟩, [[3], [5]], -1⟩]

/-- the hypotheses are met -/
example : ∃ badR : Finset ℚ, badR.card ≤ 1 ∧ ∀ r ∉ badR, ∃ badXi : Finset ℚ, badXi.card ≤ 1 ∧
    ∀ xi ∉ badXi, ∀ u, NoRelation ℚ exTreeParams.g u exTreeParams.h → ∀ t : IpaTree ℚ exV 1, t.Distinct →
      ¬ t.AllPaths (AcceptedRun exTreeParams exClaims [2, 3] xi r u) :=
  C76_individual_claims_partial exTreeParams exClaims [2, 3] 1 rfl [([3, 5], 0), ([1, 1], 0)]
    (by simp [exTreeParams])
    (by simp [exClaims, IpaEval.comms, exTreeParams, lin])
    [[[13, 18]], [[3, 5]]]
    (by simp [exClaims, IpaEval.rows, ipaTranspose, List.range_succ])
    rfl (by simp) 1 1 [3, 5] 5 3 ([1, 1], 0) rfl rfl rfl rfl (by norm_num [hornerEval])

end Crypto3Zk
