import Verif.Lemmas.PlaceholderComplete

/-!
# The placeholder proof system: evaluation points (C61) and the final equation (C37)
-/

set_option linter.unusedSectionVars false

namespace Crypto3Zk

open Polynomial

variable {F : Type} [Field F] [DecidableEq F] {S H Com Pr Data Obj : Type}
variable {C : CommScheme F S Com Pr Data Obj} {T : PlonkTranscript S F H Com} {L : FftLib F}
variable {A n fuel : Nat} {d : TableDesc} {c : Circuit F} {order : List PlonkVar} {delta : F}
variable {mqc : Nat} {hash : H} {t : PlonkTable F} {obj o0 : Obj} {pd : PublicData F H Com Data}
variable {proof : PlaceholderProof F Com Pr}

/-! ## C61 -/

/-- C61: for a preprocessed circuit and every challenge `y`, the prover and the verifier both get through and
ask for the same evaluations, in the same order. -/
theorem C61_same_points (hL : L.Lawful A) (hn : n ≤ A) (hsel : t.selectors.length = d.selector)
    (h : placeholderPreprocess C T L n fuel d c order delta mqc hash t obj = some (pd, o0)) (y : F) :
    ∃ pts, proverPoints L n d c pd.perm pd.common t.selectors.length y = some pts ∧
      verifierPoints L n d c pd.common y = some pts := by
  have hp := preprocess_facts h
  obtain ⟨hr, -⟩ := columnsRotations_spec d c _ hp.rotations
  obtain ⟨h1, h2, -⟩ := permPreprocess_shape hL hn hp.perm
  have h3 : pd.common.permutedColumns.length = order.length := length_mapM _ _ _ hp.indices
  refine ⟨_, ?_, verifierPoints_eq L n d c pd.common y hr⟩
  rw [hsel, proverPoints_eq L n d c pd.perm pd.common y hr, h1, h2, h3, mul_two]

/-- C61: which points are asked for. Column `i` of the table is opened at `y ω^r` for the rotations `r` (in
increasing order) with which it is used, zero always among them; the first permutation polynomial of the
permutation and of the lookup argument and the two selectors of the preprocessor are also opened at `y ω`; the sorted
columns at `y`, `y ω` and `y ω^usable`; all the others at `y` alone. -/
theorem C61_requested (hL : L.Lawful A) (hn : n ≤ A) (ho : c.copies ≠ [] → order ≠ [])
    (h : placeholderPreprocess C T L n fuel d c order delta mqc hash t obj = some (pd, o0)) (y : F)
    (pts : List (LpcOp F)) (hv : verifierPoints L n d c pd.common y = some pts) :
    (∀ g < d.width, ∃ rs : List Int, rs.Pairwise (· < ·) ∧
      (∀ r, r ∈ rs ↔ r = 0 ∨ VarUsed d c g r ∨ LookupTableUsed d c g r) ∧
      (if g < d.witness + d.publicInput then lpcRequested VARIABLE_BATCH g pts
        else lpcRequested FIXED_BATCH (2 * order.length + 2 + (g - (d.witness + d.publicInput))) pts) =
        rs.map fun r => y * L.root n ^ r) ∧
    (∀ i < 2 * order.length, lpcRequested FIXED_BATCH i pts = [y]) ∧
    (∀ i, i = 2 * order.length ∨ i = 2 * order.length + 1 →
      lpcRequested FIXED_BATCH i pts = [y, y * L.root n]) ∧
    (c.copies ≠ [] → lpcRequested PERMUTATION_BATCH 0 pts = [y, y * L.root n]) ∧
    (c.lookups.gates ≠ [] → lpcRequested PERMUTATION_BATCH pd.perm.parts pts = [y, y * L.root n] ∧
      ∀ i, lpcRequested LOOKUP_BATCH i pts = [y, y * L.root n, y * L.root n ^ d.usableRows]) ∧
    (c.copies ≠ [] ∨ c.lookups.gates ≠ [] → ∀ i, c.copies = [] ∨ i ≠ 0 →
      c.lookups.gates = [] ∨ i ≠ pd.perm.parts → lpcRequested PERMUTATION_BATCH i pts = [y]) ∧
    ∀ i, lpcRequested QUOTIENT_BATCH i pts = [y] := by
  have hp := preprocess_facts h
  obtain ⟨hr, hs, -, hm⟩ := columnsRotations_spec d c _ hp.rotations
  obtain ⟨-, -, -, -, -, -, -, -, -, -, -, -, hparts⟩ := permPreprocess_shape hL hn hp.perm
  have h3 : pd.common.permutedColumns.length = order.length := length_mapM _ _ _ hp.indices
  have he : (L.domain n).elem 1 = L.root n := pow_one _
  rw [verifierPoints_eq L n d c pd.common y hr, Option.some_inj] at hv
  have hreq := fun i => pointOps_requested L n d c pd.common.rotations pd.common.permutationParts
    pd.common.desc.usableRows (pd.common.permutedColumns.length * 2 + 2) y i
  rw [hv] at hreq
  simp only [he, h3, hp.parts, hp.desc] at hreq
  have hstart : order.length * 2 + 2 = 2 * order.length + 2 := by omega
  have hpos : c.copies ≠ [] → pd.perm.parts ≠ 0 := by
    intro hc h0
    have hl : order.length ≠ 0 := fun hl => ho hc (List.length_eq_zero_iff.1 hl)
    unfold permutationParts at hparts
    rw [if_neg hl, h0] at hparts
    by_cases h1 : mqc = 0
    · rw [if_pos h1] at hparts; simp at hparts
    rw [if_neg h1] at hparts
    by_cases h2 : mqc - 1 = 0
    · rw [if_pos h2] at hparts; simp at hparts
    rw [if_neg h2] at hparts
    by_cases h4 : order.length % (mqc - 1) = 0
    · rw [if_pos h4, Option.some_inj] at hparts
      have := Nat.mod_add_div order.length (mqc - 1)
      rw [h4, hparts, mul_zero] at this
      omega
    · rw [if_neg h4, Option.some_inj] at hparts
      exact absurd hparts (Nat.succ_ne_zero _)
  refine ⟨?_, ?_, ?_, ?_, ?_, ?_, fun i => (hreq i).2.2.2.1⟩
  · intro g hg
    refine ⟨pd.common.rotations.getD g [], ?_, hm g hg, ?_⟩
    · rw [List.getD_eq_getElem _ _ (by omega)]
      exact hs _ (List.getElem_mem _)
    · by_cases h1 : g < d.witness + d.publicInput
      · rw [if_pos h1, (hreq g).1, if_pos h1]
      · rw [if_neg h1, (hreq _).2.2.2.2 (by omega), if_neg (by omega), if_pos (by
          unfold TableDesc.width at hg; omega)]
        congr 3
        omega
  · intro i hi
    rw [(hreq i).2.2.2.2 (by omega), if_pos (by omega), if_neg (by omega), List.append_nil]
  · intro i hi
    rw [(hreq i).2.2.2.2 (by omega), if_pos (by omega), if_pos (by omega)]
    rfl
  · intro hc
    rw [(hreq 0).2.1, if_pos (Or.inr hc), if_pos ⟨hc, rfl⟩, if_neg (fun h => hpos hc h.2.symm)]
    rfl
  · intro hl
    refine ⟨?_, fun i => by rw [(hreq i).2.2.1, if_pos hl]⟩
    rw [(hreq _).2.1, if_pos (Or.inl hl), if_neg (fun h => hpos h.1 h.2), if_pos ⟨hl, rfl⟩]
    rfl
  · intro hcl i h1 h2
    rw [(hreq i).2.1, if_pos hcl.symm, if_neg (by tauto), if_neg (by tauto)]
    rfl

/-- C61: the rotation sets exist if the constraints refer to columns of the table. -/
theorem C61_defined (hg : ∀ v ∈ c.usedVars, v.type ≠ .uninitialized)
    (hi : ∀ i r, VarUsed d c i r ∨ LookupTableUsed d c i r → i < d.width) :
    ∃ rots, columnsRotations d c = some rots :=
  columnsRotations_defined d c hg hi

/-! ## C37 -/

theorem natDegree_sum_le_of_forall (l : List F[X]) (D : Nat) (h : ∀ p ∈ l, p.natDegree ≤ D) :
    l.sum.natDegree ≤ D := by
  induction l with
  | nil => simp
  | cons p l ih =>
    rw [List.sum_cons]
    exact (natDegree_add_le _ _).trans (max_le (h p List.mem_cons_self)
      (ih fun q hq => h q (List.mem_cons_of_mem _ hq)))

theorem consolidateQuotient_eval (rows : Nat) (chunks : List F[X]) (y : F) :
    consolidateQuotient (chunks.map (eval y)) rows y = (recombine rows chunks).eval y := by
  induction chunks with
  | nil => simp [consolidateQuotient, recombine]
  | cons p ps ih =>
    have hr : recombine rows (p :: ps) = p + X ^ rows * recombine rows ps := by
      have : (ps.mapIdx fun i (q : F[X]) => q * X ^ (rows * (i + 1))) =
          (ps.mapIdx fun i q => q * X ^ (rows * i)).map fun q => X ^ rows * q := by
        apply List.ext_getElem (by simp)
        intro i h1 h2
        simp only [List.getElem_mapIdx, List.getElem_map]
        ring
      unfold recombine
      rw [List.mapIdx_cons, List.sum_cons, this, List.sum_map_mul_left, List.map_id']
      simp
    rw [List.map_cons, consolidate_cons, ih, hr]
    simp

theorem consolidate_combination (fs : List F[X]) (as : List F) : consolidate fs as = combination as fs := by
  unfold consolidate combination
  rw [List.zipWith_comm]
  congr 2
  funext a f
  split_ifs with h
  · rw [h, mul_zero]
  · rfl

theorem combination_eval (as : List F) (fs : List F[X]) (y : F) :
    (combination as fs).eval y = (List.zipWith (fun a f => a * f) as (fs.map (eval y))).foldl (· + ·) 0 := by
  rw [verifier_consolidate, consolidate_combination]

/-- C37: if the combination of the constraint polynomials is the vanishing polynomial of the rows times the
polynomial recombined from the chunks, the final equation holds at every point. -/
theorem C37_equation_complete (rows : Nat) (hr : 0 < rows) (alphas : List F) (fs chunks : List F[X])
    (h : combination alphas fs = (X ^ rows - 1) * recombine rows chunks) (y : F) :
    FinalEquation rows alphas (fs.map (eval y)) (chunks.map (eval y)) y := by
  unfold FinalEquation
  rw [← combination_eval, consolidateQuotient_eval, h, eval_mul, ← eval_toPoly, toPoly_vanishing _ hr]

/-- C37: if the final equation holds at more points than the degrees, then the combination is divisible by the
vanishing polynomial, the quotient is recombined from the chunks, and the combination is zero on every row. -/
theorem C37_equation_sound (hL : L.Lawful A) (hn : n ≤ A) (alphas : List F) (fs chunks : List F[X])
    (D : Nat) (hf : ∀ f ∈ fs, f.natDegree ≤ D)
    (hc : ∀ i p, chunks[i]? = some p → p.natDegree + 2 ^ n * (i + 1) ≤ D) (points : Finset F)
    (hp : D < points.card)
    (h : ∀ y ∈ points, FinalEquation (2 ^ n) alphas (fs.map (eval y)) (chunks.map (eval y)) y) :
    combination alphas fs = (X ^ 2 ^ n - 1) * recombine (2 ^ n) chunks ∧
      PolyVanishesOnRows L n (combination alphas fs) := by
  have hN : 0 < 2 ^ n := by positivity
  have h1 : (combination alphas fs).natDegree ≤ D := by
    apply natDegree_sum_le_of_forall
    intro p hp
    obtain ⟨i, hi, rfl⟩ := List.getElem_of_mem hp
    rw [List.getElem_zipWith]
    exact (natDegree_C_mul_le _ _).trans (hf _ (List.getElem_mem _))
  have h2 : ((X ^ 2 ^ n - 1) * recombine (2 ^ n) chunks).natDegree ≤ D := by
    by_cases h0 : chunks = []
    · simp [h0, recombine]
    · obtain ⟨p0, hp0⟩ : ∃ p, chunks[0]? = some p := by
        cases chunks with
        | nil => exact absurd rfl h0
        | cons p ps => exact ⟨p, rfl⟩
      have hD := hc 0 p0 hp0
      refine natDegree_mul_le.trans ?_
      have e1 : (X ^ 2 ^ n - 1 : F[X]).natDegree = 2 ^ n := natDegree_X_pow_sub_C (n := 2 ^ n) (r := (1 : F))
      have e2 : (recombine (2 ^ n) chunks).natDegree ≤ D - 2 ^ n := by
        apply natDegree_sum_le_of_forall
        intro p hp
        obtain ⟨i, hi, rfl⟩ := List.getElem_of_mem hp
        rw [List.getElem_mapIdx]
        have hi' : i < chunks.length := by simpa using hi
        have := hc i _ (List.getElem?_eq_getElem hi')
        refine natDegree_mul_le.trans ?_
        rw [natDegree_X_pow]
        rw [Nat.mul_add] at this
        omega
      rw [e1]
      omega
  have h3 : combination alphas fs = (X ^ 2 ^ n - 1) * recombine (2 ^ n) chunks := by
    refine eq_of_degree_sub_lt_of_eval_finset_eq points ?_ ?_
    · refine lt_of_le_of_lt degree_le_natDegree (WithBot.coe_lt_coe.2 (lt_of_le_of_lt ?_ hp))
      exact (natDegree_sub_le _ _).trans (max_le h1 h2)
    · intro y hy
      have := h y hy
      unfold FinalEquation at this
      rw [← combination_eval, consolidateQuotient_eval, ← eval_toPoly, toPoly_vanishing _ hN] at this
      rw [this, eval_mul]
  refine ⟨h3, fun j _ => ?_⟩
  rw [h3, eval_mul, eval_sub, eval_pow, eval_X, eval_one, ← pow_mul, mul_comm j, pow_mul,
    root_pow_card hL n hn, one_pow, sub_self, zero_mul]

/-- C37: if some constraint polynomial is not zero on some row, then whatever the other challenges are, there
is at most one value of its challenge for which the combination is zero on every row. -/
theorem C37_alphas (fs : List F[X]) (k : Nat) (f : F[X]) (hk : fs[k]? = some f)
    (hf : ¬ PolyVanishesOnRows L n f) (alphas : List F) (hl : k < alphas.length) (a a' : F)
    (h : PolyVanishesOnRows L n (combination (alphas.set k a) fs))
    (h' : PolyVanishesOnRows L n (combination (alphas.set k a') fs)) : a = a' := by
  unfold PolyVanishesOnRows at hf
  push Not at hf
  obtain ⟨j, hj, hne⟩ := hf
  have key : ∀ b, (combination (alphas.set k b) fs).eval (L.root n ^ j) =
      (combination (alphas.set k 0) fs).eval (L.root n ^ j) + b * f.eval (L.root n ^ j) := by
    intro b
    rw [← consolidate_combination, ← consolidate_combination, consolidate_eval, consolidate_eval]
    clear h h' hne
    induction fs generalizing k alphas with
    | nil => simp at hk
    | cons g gs ih =>
      cases alphas with
      | nil => simp at hl
      | cons x xs =>
        cases k with
        | zero =>
          simp only [List.getElem?_cons_zero, Option.some.injEq] at hk
          subst hk
          simp only [List.set_cons_zero, List.zipWith_cons_cons, List.sum_cons]
          ring
        | succ k =>
          simp only [List.getElem?_cons_succ] at hk
          simp only [List.set_cons_succ, List.zipWith_cons_cons, List.sum_cons]
          rw [ih k hk xs (by simpa using hl)]
          ring
  have e1 := h j hj
  have e2 := h' j hj
  rw [key] at e1 e2
  have : (a - a') * f.eval (L.root n ^ j) = 0 := by linear_combination e1 - e2
  rcases mul_eq_zero.1 this with h0 | h0
  · exact sub_eq_zero.1 h0
  · exact absurd h0 hne

/-- C37: what the verifier answers on the proof of an honest prover, for every table. There are constraint
polynomials, which vanish on the rows if the table satisfies the circuit; and the answer is whether the
remainder of their combination, by the vanishing polynomial of the rows, is zero at the challenge. -/
theorem C37_honest_verdict {Has : FriPoly F → List F → Prop} {maxLen : Nat} {okPoints : List F → Prop}
    {okSetup : S → Prop} (hC : C.Complete Has maxLen okPoints okSetup) (hR : C.RootLaws)
    (hH : HasLaws L n Has) (hmax : 2 ^ n ≤ maxLen) (hS : PlaceholderSetup L A n fuel d c order t)
    (hpre : placeholderPreprocess C T L n fuel d c order delta mqc hash t C.new = some (pd, o0))
    (hprove : placeholderProve C T L n d c order pd t o0 = some proof)
    (hset : okSetup (T.key pd.common.hash pd.common.fixedCommitment))
    (hok : ∀ pts, verifierPoints L n d c pd.common proof.challenge = some pts →
      ∀ k i, okPoints (lpcRequested k i pts))
    (hsort : ∀ vcom theta, proof.commitments.find VARIABLE_BATCH = some vcom →
      theta = lookupTheta T c pd.perm.parts vcom
        (C.setup o0 (T.key pd.common.hash pd.common.fixedCommitment) pd.common.schemeData).1 →
      c.lookups.gates ≠ [] → Sortable (compressedInputs t c.lookups n theta)
        (compressedValues t c.lookups n d.usableRows theta) (2 ^ n) d.usableRows) :
    ∃ (fs : List F[X]) (alphas : List F), fs.length = 8 ∧ alphas.length = 8 ∧
      (CopiesHold d c.copies t.cellAt → GatesHold t c.gates d.usableRows →
        ∀ f ∈ fs, PolyVanishesOnRows L n f) ∧
      ∀ asserts, placeholderVerify C T L n asserts d c pd.common proof o0 =
        some (decide ((combination alphas fs %ₘ (X ^ 2 ^ n - 1)).eval proof.challenge = 0)) := by
  have hp := preprocess_facts hpre
  obtain ⟨D, h⟩ := prove_run hR hprove
  obtain ⟨-, -, -, -, -, -, -, -, -, -, s11, -⟩ := permPreprocess_shape hS.lib hS.small hp.perm
  have hu : pd.perm.usableRows ≤ 2 ^ n := by have := hS.rows; have := hS.usable; omega
  obtain ⟨c1, -⟩ := h.find_commitments
  have hsort' := hsort D.vcom _ c1 (h.theta hS.lib hS.small hu)
  have hv := h.verify hC hH hmax hS hp hset
    (fun k i _ => hok D.pts (h.pts_eq hS hp).2.1 k i) hsort'
  refine ⟨[D.fp.1, D.fp.2.1, D.fp.2.2, D.fl.1, D.fl.2.1, D.fl.2.2.1, D.fl.2.2.2, D.fg],
    (drawN T.challenge 8 D.st4).1, rfl, length_drawN _ _ _, fun hc hg => h.vanish hS hp hsort' hc hg, ?_⟩
  intro asserts
  have hN : 0 < 2 ^ n := by positivity
  rw [hv, ← consolidate_combination, Option.some_inj]
  congr 1
  have hch := h.chunks
  rw [hp.Z, hS.rows] at hch
  rw [(C36_prover_chunks _ _ _ _ _ _ _ hch).2.2, ← eval_toPoly, ← eval_toPoly,
    (toPoly_divMod _ _ (getLastD_vanishing _ hN)).1, toPoly_coeffsOf, toPoly_vanishing _ hN, ← eval_mul]
  generalize consolidate [D.fp.1, D.fp.2.1, D.fp.2.2, D.fl.1, D.fl.2.1, D.fl.2.2.1, D.fl.2.2.2, D.fg]
    (drawN T.challenge 8 D.st4).1 = f
  have hd := modByMonic_add_div f (X ^ 2 ^ n - 1 : F[X])
  have he := congrArg (eval proof.challenge) hd
  rw [eval_add] at he
  rw [← he, eq_iff_iff, add_eq_right]

/-- C37, completeness of the proof system: if the table satisfies the copy constraints and the gates, and
its lookups can be sorted after compression with the first challenge of the lookup argument, then the
verifier accepts every proof the prover makes. -/
theorem C37_honest_accepted {Has : FriPoly F → List F → Prop} {maxLen : Nat} {okPoints : List F → Prop}
    {okSetup : S → Prop} (hC : C.Complete Has maxLen okPoints okSetup) (hR : C.RootLaws)
    (hH : HasLaws L n Has) (hmax : 2 ^ n ≤ maxLen) (hS : PlaceholderSetup L A n fuel d c order t)
    (hpre : placeholderPreprocess C T L n fuel d c order delta mqc hash t C.new = some (pd, o0))
    (hprove : placeholderProve C T L n d c order pd t o0 = some proof)
    (hset : okSetup (T.key pd.common.hash pd.common.fixedCommitment))
    (hok : ∀ pts, verifierPoints L n d c pd.common proof.challenge = some pts →
      ∀ k i, okPoints (lpcRequested k i pts))
    (hsort : ∀ vcom theta, proof.commitments.find VARIABLE_BATCH = some vcom →
      theta = lookupTheta T c pd.perm.parts vcom
        (C.setup o0 (T.key pd.common.hash pd.common.fixedCommitment) pd.common.schemeData).1 →
      c.lookups.gates ≠ [] → Sortable (compressedInputs t c.lookups n theta)
        (compressedValues t c.lookups n d.usableRows theta) (2 ^ n) d.usableRows)
    (hcopies : CopiesHold d c.copies t.cellAt) (hgates : GatesHold t c.gates d.usableRows)
    (asserts : Bool) : placeholderVerify C T L n asserts d c pd.common proof o0 = some true := by
  obtain ⟨fs, alphas, -, -, h1, h2⟩ := C37_honest_verdict hC hR hH hmax hS hpre hprove hset hok hsort
  have hm : (X ^ 2 ^ n - 1 : F[X]).Monic := monic_X_pow_sub_C 1 (by positivity)
  have hv : PolyVanishesOnRows L n (combination alphas fs) := by
    rw [← consolidate_combination]
    exact consolidate_vanishes fs alphas (h1 hcopies hgates)
  rw [h2, (modByMonic_eq_zero_iff_dvd hm).2 (zerofier_dvd hS.lib hS.small _ hv)]
  simp

/-- Every point asked for is the challenge times a power of the root of unity. -/
theorem requested_rotation {y : F} {pts : List (LpcOp F)} (hr : pd.common.rotations.length = d.width)
    (h : verifierPoints L n d c pd.common y = some pts) (k i : Nat) :
    ∀ x ∈ lpcRequested k i pts, ∃ r : Int, x = y * L.root n ^ r := by
  have he : (L.domain n).elem 1 = L.root n := pow_one _
  have h0 : ∃ r : Int, y = y * L.root n ^ r := ⟨0, by simp⟩
  have h1 : ∃ r : Int, y * L.root n = y * L.root n ^ r := ⟨1, by simp⟩
  have hN : ∀ m : Nat, ∃ r : Int, y * L.root n ^ m = y * L.root n ^ r := fun m => ⟨m, by simp⟩
  have hall : ∀ op ∈ pts, (∃ k xs, op = LpcOp.points k xs ∧ ∀ x ∈ xs, ∃ r : Int, x = y * L.root n ^ r) ∨
      ∃ k i xs, op = LpcOp.pointsTo k i xs ∧ ∀ x ∈ xs, ∃ r : Int, x = y * L.root n ^ r := by
    rw [verifierPoints_eq L n d c pd.common y hr, Option.some_inj] at h
    subst h
    intro op hop
    simp only [pointOps, List.mem_append, List.mem_flatMap, List.mem_map, he] at hop
    rcases hop with ((((((⟨i, _, r, _, rfl⟩ | h) | h) | h) | h) | ⟨i, _, rfl⟩) | h) | ⟨i, _, r, _, rfl⟩
    · exact Or.inr ⟨_, _, _, rfl, by simp only [List.mem_singleton]; rintro x rfl; exact ⟨r, rfl⟩⟩
    · split_ifs at h with hc
      · rw [List.mem_singleton.1 h]; exact Or.inl ⟨_, _, rfl, by simpa using h0⟩
      · simp at h
    · split_ifs at h with hc
      · rw [List.mem_singleton.1 h]; exact Or.inr ⟨_, _, _, rfl, by simpa using h1⟩
      · simp at h
    · split_ifs at h with hc
      · simp only [List.mem_cons, List.not_mem_nil, or_false] at h
        rcases h with rfl | rfl | rfl | rfl
        · exact Or.inr ⟨_, _, _, rfl, by simpa using h1⟩
        · exact Or.inl ⟨_, _, rfl, by simpa using h0⟩
        · exact Or.inl ⟨_, _, rfl, by simpa using h1⟩
        · exact Or.inl ⟨_, _, rfl, by
            simp only [List.mem_singleton]; rintro x rfl; exact hN _⟩
      · simp at h
    · rw [List.mem_singleton.1 h]; exact Or.inl ⟨_, _, rfl, by simpa using h0⟩
    · exact Or.inr ⟨_, _, _, rfl, by simpa using h0⟩
    · simp only [List.mem_cons, List.not_mem_nil, or_false] at h
      rcases h with rfl | rfl <;> exact Or.inr ⟨_, _, _, rfl, by simpa using h1⟩
    · exact Or.inr ⟨_, _, _, rfl, by simp only [List.mem_singleton]; rintro x rfl; exact ⟨r, rfl⟩⟩
  intro x hx
  obtain ⟨op, hop, hxop⟩ := List.mem_flatMap.1 hx
  rcases hall op hop with ⟨k', xs, rfl, hxs⟩ | ⟨k', i', xs, rfl, hxs⟩
  · simp only at hxop
    split_ifs at hxop
    · exact hxs x hxop
    · simp at hxop
  · simp only at hxop
    split_ifs at hxop
    · exact hxs x hxop
    · simp at hxop

/-- A smaller domain is part of a larger one. -/
theorem root_subgroup (hL : L.Lawful A) {N : Nat} (hnN : n ≤ N) (hN : N ≤ A) :
    L.root n = L.root N ^ 2 ^ (N - n) := by
  induction N with
  | zero => obtain rfl : n = 0 := by omega
            simp
  | succ N ih =>
    by_cases h : n = N + 1
    · subst h; simp
    · rw [ih (by omega) (by omega), ← hL.root_sq N (by omega), ← pow_two, ← pow_mul,
        show N + 1 - n = (N - n) + 1 by omega, pow_succ, mul_comm]

theorem outside_of_challenge (hL : L.Lawful A) {N : Nat} (hnN : n ≤ N) (hN : N ≤ A) {y : F}
    (hy : ∀ m, (L.domain N).elem m ≠ y) (r : Int) (m : Nat) : (L.domain N).elem m ≠ y * L.root n ^ r := by
  intro he
  have h0 : L.root N ≠ 0 := root_ne_zero hL N hN
  have hcard := root_pow_card hL N hN
  rw [root_subgroup hL hnN hN, ← zpow_natCast, ← zpow_mul] at he
  have hz : y = L.root N ^ ((m : Int) - (2 ^ (N - n) : Nat) * r) := by
    rw [zpow_sub₀ h0, eq_div_iff (zpow_ne_zero _ h0), ← he]
    exact (zpow_natCast _ _).symm
  have hpos : (0 : Int) < (2 ^ N : Nat) := by positivity
  generalize (m : Int) - (2 ^ (N - n) : Nat) * r = e at hz
  apply hy (e % (2 ^ N : Nat)).toNat
  show L.root N ^ (e % (2 ^ N : Nat)).toNat = y
  rw [hz, ← zpow_natCast, Int.toNat_of_nonneg (Int.emod_nonneg _ hpos.ne')]
  conv_rhs => rw [← Int.emod_add_mul_ediv e (2 ^ N : Nat), zpow_add₀ h0, zpow_mul, zpow_natCast, hcard,
    one_zpow, mul_one]

/-- C37, completeness of the proof system over the FRI-based commitment scheme: the verifier accepts, if the
challenge and the challenge for the preprocessed polynomials are not in the domain of FRI. -/
theorem C37_lpc_accepted {Tree Root Path : Type} [DecidableEq Root] {M : MerkleLib F Tree Root Path}
    (hM : M.Lawful) {FT : FriTranscript S F Root} {prm : FriParams F} {N D : Nat}
    (hprm : LpcParams L prm A N D) (hdeg : 2 ^ n ≤ prm.maxDegree + 1) {dfs : Bool} {pfuel nonce : Nat}
    {T : PlonkTranscript S F H Root} {pd : PublicData F H Root (OMap (List F))} {o0 : LpcScheme F Tree}
    {proof : PlaceholderProof F Root (FriProof F Root Path)}
    (hS : PlaceholderSetup L A n fuel d c order t)
    (hpre : placeholderPreprocess (lpcComm L M FT prm dfs pfuel nonce) T L n fuel d c order delta mqc hash t
      LpcScheme.new = some (pd, o0))
    (hprove : placeholderProve (lpcComm L M FT prm dfs pfuel nonce) T L n d c order pd t o0 = some proof)
    (hset : ∀ m, (L.domain N).elem m ≠
      (FT.challenge (T.key pd.common.hash pd.common.fixedCommitment)).2)
    (hy : ∀ m, (L.domain N).elem m ≠ proof.challenge)
    (hsort : ∀ vcom theta, proof.commitments.find VARIABLE_BATCH = some vcom →
      theta = lookupTheta T c pd.perm.parts vcom
        (FT.challenge (T.key pd.common.hash pd.common.fixedCommitment)).1 →
      c.lookups.gates ≠ [] → Sortable (compressedInputs t c.lookups n theta)
        (compressedValues t c.lookups n d.usableRows theta) (2 ^ n) d.usableRows)
    (hcopies : CopiesHold d c.copies t.cellAt) (hgates : GatesHold t c.gates d.usableRows)
    (asserts : Bool) :
    placeholderVerify (lpcComm L M FT prm dfs pfuel nonce) T L n asserts d c pd.common proof o0 =
      some true := by
  have hnN : n ≤ N := by
    rw [hprm.degree.1] at hdeg
    exact ((Nat.pow_le_pow_iff_right (by norm_num)).1 hdeg).trans hprm.degree.2
  refine C37_honest_accepted (lpcComm_complete hS.lib M hM FT hprm dfs pfuel nonce)
    (lpcComm_rootLaws M FT prm dfs pfuel nonce) (hasLaws_lpc N hnN) hdeg hS hpre hprove hset ?_ hsort hcopies
    hgates asserts
  intro pts hpts k i x hx m
  obtain ⟨r, rfl⟩ := requested_rotation (columnsRotations_spec d c _ (preprocess_facts hpre).rotations).1 hpts
    k i x hx
  exact outside_of_challenge hS.lib hnN hprm.adicity hy r m

end Crypto3Zk
