import Verif.Lemmas.FRIProof
import Verif.Lemmas.FftExample
import Mathlib.FieldTheory.Finite.Basic
import Mathlib.Data.ZMod.Basic
import Mathlib.Algebra.Field.ZMod
import Mathlib.Tactic.NormNum.Prime

/-!
# C41, C42, C43: FRI
-/

namespace Crypto3Zk

set_option linter.unusedSectionVars false

variable {F : Type} [Field F] {Tree Root Path S : Type} {L : FftLib F} {A : Nat}

/-! ## C41: folding -/

/-- **C41** (coefficient form): the folded polynomial has at `x²` the folded value of `f`, for every
nonzero `x`. -/
theorem C41_fold_coeff (h2 : (2 : F) ≠ 0) (f : List F) (hf : f ≠ []) (alpha : F) :
    ∃ g, foldCoeff f alpha = some g ∧
      (∀ x ≠ 0, evalPoly g (x * x) = foldedValue (evalPoly f) alpha x) ∧
      g.length = (f.length + 1) / 2 :=
  ⟨foldList alpha f, foldCoeff_eq f hf alpha, fun x hx => foldList_eval_div h2 alpha f x hx,
    length_foldList alpha f⟩

/-- **C41** (evaluation form): entry `i` of the folded vector is the folded value at the `i`-th point
of the domain, computed from the entries at that point and at its negation, for every vector of
values. -/
theorem C41_fold_dfs (hL : L.Lawful A) (n : Nat) (hn : n < A) (f : F → F) (alpha : F) :
    ∃ g, foldDfs ((List.range (2 ^ (n + 1))).map fun i => f ((L.domain (n + 1)).elem i)) alpha
        (L.domain (n + 1)) = some g ∧ g.length = 2 ^ n ∧
      ∀ i < 2 ^ n, g[i]? = some (foldedValue f alpha ((L.domain (n + 1)).elem i)) ∧
        (L.domain (n + 1)).elem i * (L.domain (n + 1)).elem i = (L.domain n).elem i := by
  have hp : 2 ^ (n + 1) = 2 * 2 ^ n := by rw [pow_succ, mul_comm]
  refine ⟨_, foldDfs_entries hL n hn _ (by simp) alpha, by simp, fun i hi => ?_⟩
  refine ⟨?_, elem_sq hL n hn i⟩
  rw [List.getElem?_map, List.getElem?_range hi, Option.map_some]
  have e1 : ((List.range (2 ^ (n + 1))).map fun i => f ((L.domain (n + 1)).elem i)).getD i 0 =
      f ((L.domain (n + 1)).elem i) := by
    rw [List.getD_eq_getElem _ _ (by simp; omega)]; simp
  have e2 : ((List.range (2 ^ (n + 1))).map fun i => f ((L.domain (n + 1)).elem i)).getD (2 ^ n + i) 0 =
      f (-(L.domain (n + 1)).elem i) := by
    rw [List.getD_eq_getElem _ _ (by simp; omega), ← elem_add_half hL n hn i]; simp [add_comm]
  rw [e1, e2]
  rfl

/-- **C41** (the two forms agree): folding the values of a polynomial gives the values of the folded
polynomial. -/
theorem C41_forms_agree (hL : L.Lawful A) (n : Nat) (hn : n < A) (c : List F) (hc : c ≠ [])
    (alpha : F) :
    ∃ g, foldCoeff c alpha = some g ∧
      foldDfs ((L.domain (n + 1)).evals c) alpha (L.domain (n + 1)) = some ((L.domain n).evals g) :=
  ⟨foldList alpha c, foldCoeff_eq c hc alpha, foldDfs_evals hL n hn c alpha⟩

/-- **C41** (the verifier): interpolating through `(s, f(s))` and `(-s, f(-s))` and evaluating at
`alpha` gives the folded value, whatever the index pair says. -/
theorem C41_interpolation (h2 : (2 : F) ≠ 0) (f : F → F) (s alpha : F) (hs : s ≠ 0) (ix : Nat × Nat) :
    friInterpolate [(s, -s)] [ix]
      [if ix.1 < ix.2 then (f s, f (-s)) else (f (-s), f s)] alpha 0 =
        some (foldedValue f alpha s) := by
  unfold friInterpolate foldedValue
  simp only [List.getElem?_cons_zero, Option.bind_eq_bind, Option.bind_some, Option.some.injEq]
  split_ifs
  · exact interpolate_pair h2 s _ _ alpha hs
  · rw [interpolate_pair h2 (-s) _ _ alpha (neg_ne_zero.mpr hs)]
    field_simp
    ring

/-- **C41** (degree): folding halves the degree bound. -/
theorem C41_degree (f g : List F) (alpha : F) (h : foldCoeff f alpha = some g) (d : Nat)
    (hd : f.length ≤ 2 * d) : g.length ≤ d := by
  by_cases hf : f = []
  · rw [hf] at h; simp [foldCoeff] at h
  · rw [foldCoeff_eq f hf] at h
    obtain rfl := Option.some.inj h
    rw [length_foldList]
    omega

/-- The empty coefficient vector is not folded. -/
theorem C41_empty (alpha : F) : foldCoeff ([] : List F) alpha = none := rfl

/-! ## C42: indices -/

/-- **C42** (the index list): for a domain of `2 ^ n` points, an index `x` and a step `s` the list has
`2 ^ (s - 1)` pairs; together they contain every index congruent to `x` modulo the folded size exactly
once, and nothing else; the two members of a pair differ by half the domain. -/
theorem C42_indices (n s x : Nat) (hs : 1 ≤ s) (hsn : s ≤ n) (hx : x < 2 ^ n) :
    ∃ ix, cosetIndices x (2 ^ n) s = some ix ∧ ix.length = 2 ^ (s - 1) ∧
      (ix.flatMap fun p => [p.1, p.2]).Nodup ∧
      (∀ y, y ∈ ix.flatMap (fun p => [p.1, p.2]) ↔ y < 2 ^ n ∧ y % 2 ^ (n - s) = x % 2 ^ (n - s)) ∧
      ∀ p ∈ ix, p.2 = (p.1 + 2 ^ n / 2) % 2 ^ n := by
  obtain ⟨m, rfl⟩ : ∃ m, n = m + 1 := ⟨n - 1, by omega⟩
  obtain ⟨k, rfl⟩ : ∃ k, s = k + 1 := ⟨s - 1, by omega⟩
  have hkm : k ≤ m := by omega
  have hp : 2 ^ (m + 1) = 2 * 2 ^ m := by rw [pow_succ, mul_comm]
  have hpos : 0 < 2 ^ m := Nat.pow_pos (by norm_num)
  refine ⟨_, cosetIndices_eq (2 ^ (m + 1)) x k hx, by simp, ?_, ?_, ?_⟩
  · rw [List.nodup_flatMap]
    constructor
    · intro p hp'
      obtain ⟨i, _, rfl⟩ := List.mem_map.mp hp'
      have := pairedIndex_pow m _ (cosetIdx_lt (m + 1) x i)
      simp only [List.nodup_cons, List.mem_singleton, List.not_mem_nil, not_false_eq_true,
        List.nodup_nil, and_true]
      split_ifs at this <;> omega
    · rw [List.pairwise_map]
      refine List.Pairwise.imp_of_mem ?_ (List.pairwise_lt_range (n := 2 ^ k))
      intro i j hi hj hij
      simp only [List.mem_range] at hi hj
      have hmod : ∀ y i, y ∈ [cosetIdx (2 ^ (m + 1)) x i,
          pairedIndex (cosetIdx (2 ^ (m + 1)) x i) (2 ^ (m + 1))] →
          y % 2 ^ m = cosetIdx (2 ^ (m + 1)) x i % 2 ^ m := by
        intro y i hy
        simp only [List.mem_cons, List.not_mem_nil, or_false] at hy
        rcases hy with rfl | rfl
        · rfl
        · exact pairedIndex_mod m m _ le_rfl
      intro y hy1 hy2
      have := cosetIdx_disjoint m k x i j hkm hi hj hx (by rw [← hmod y i hy1, hmod y j hy2])
      omega
  · intro y
    rw [show m + 1 - (k + 1) = m - k by omega]
    simp only [List.mem_flatMap, List.mem_map, List.mem_range, List.mem_cons, List.not_mem_nil,
      or_false]
    constructor
    · rintro ⟨p, ⟨i, hi, rfl⟩, rfl | rfl⟩
      · exact ⟨cosetIdx_lt _ _ _, cosetIdx_mod m k x i hkm hi⟩
      · refine ⟨pairedIndex_lt _ _, ?_⟩
        rw [pairedIndex_mod m (m - k) _ (by omega), cosetIdx_mod m k x i hkm hi]
    · rintro ⟨hy, hmod⟩
      obtain ⟨i, hi, h⟩ := cosetIdx_cover m k x y hkm hx hy hmod
      exact ⟨_, ⟨i, hi, rfl⟩, h.imp Eq.symm Eq.symm⟩
  · intro p hp'
    obtain ⟨i, _, rfl⟩ := List.mem_map.mp hp'
    rfl

/-- **C42** (pairs are negations): the points of a pair are negations of each other. -/
theorem C42_negation (hL : L.Lawful A) (n : Nat) (hn : 1 ≤ n) (hA : n ≤ A) (s x : Nat)
    (ix : List (Nat × Nat)) (h : cosetIndices x (2 ^ n) s = some ix) (hx : x < 2 ^ n)
    (hs : 1 ≤ s) (hsn : s ≤ n) :
    ∀ p ∈ ix, (L.domain n).elem p.2 = -(L.domain n).elem p.1 := by
  intro p hp
  obtain ⟨ix', h', _, _, _, h2⟩ := C42_indices n s x hs hsn hx
  rw [h] at h'
  obtain rfl := Option.some.inj h'
  obtain ⟨m, rfl⟩ : ∃ m, n = m + 1 := ⟨n - 1, by omega⟩
  rw [h2 p hp]
  exact elem_paired hL m (by omega) p.1

/-- **C42** (the folded index): the folded index is the index modulo the folded size. -/
theorem C42_folded (n s x : Nat) (hsn : s ≤ n) (hx : x < 2 ^ n) :
    foldedIndex x (2 ^ n) s = some (x % 2 ^ (n - s)) := foldedIndex_eq s n x hsn hx

/-- **C42** (the leaf position): the position given to the Merkle tree is the folded index. -/
theorem C42_leaf_position (n s x : Nat) (hs : 1 ≤ s) (hsn : s ≤ n) (hx : x < 2 ^ n) :
    (foldedIndex x (2 ^ n) s).map (fun i => specializedIndex i (2 ^ n)) =
      some (x % 2 ^ (n - s)) := by
  obtain ⟨m, rfl⟩ : ∃ m, n = m + 1 := ⟨n - 1, by omega⟩
  obtain ⟨k, rfl⟩ : ∃ k, s = k + 1 := ⟨s - 1, by omega⟩
  obtain ⟨h1, h2⟩ := specialized_folded m k x hx (by omega)
  rw [h1, Option.map_some, h2, show m + 1 - (k + 1) = m - k by omega]

/-- **C42** (the reordering): for every query index the reordering finds every entry, and applied to
the values of any function on the index list of the query (smaller index first) it gives the leaf that
the committer built for the folded index from the values of the same function. -/
theorem C42_reorder (n s x : Nat) (hs : 1 ≤ s) (hsn : s ≤ n) (hx : x < 2 ^ n) :
    ∃ ix order ix0, cosetIndices x (2 ^ n) s = some ix ∧
      correctOrder x (2 ^ n) s ix = some order ∧
      cosetIndices (x % 2 ^ (n - s)) (2 ^ n) s = some ix0 ∧
      ∀ f : Nat → F, reorderLeaf order (ix.map fun p => (f (min p.1 p.2), f (max p.1 p.2))) =
        some (ix0.flatMap fun p => [f p.1, f p.2]) := by
  obtain ⟨m, rfl⟩ : ∃ m, n = m + 1 := ⟨n - 1, by omega⟩
  obtain ⟨k, rfl⟩ : ∃ k, s = k + 1 := ⟨s - 1, by omega⟩
  have hkm : k ≤ m := by omega
  have hp : 2 ^ (m + 1) = 2 * 2 ^ m := by rw [pow_succ, mul_comm]
  have hx0 : x % 2 ^ (m - k) < 2 ^ (m - k) := Nat.mod_lt _ (Nat.pow_pos (by norm_num))
  have hle : 2 ^ (m - k) ≤ 2 ^ m := Nat.pow_le_pow_right (by norm_num) (by omega)
  rw [show m + 1 - (k + 1) = m - k by omega]
  obtain ⟨order, ho, hlen, hspec⟩ := correctOrder_spec m k x hkm hx
  refine ⟨_, order, _, cosetIndices_eq _ x k hx, ho, cosetIndices_eq _ _ k (by omega), fun f => ?_⟩
  unfold reorderLeaf
  rw [mapM_eq_some_map _ (fun o : Nat × Nat =>
    [f (cosetIdx (2 ^ (m + 1)) x o.1 % 2 ^ m), f (cosetIdx (2 ^ (m + 1)) x o.1 % 2 ^ m + 2 ^ m)])]
  · simp only [Option.bind_eq_bind, Option.bind_some, List.flatMap_def, List.map_map]
    congr 2
    apply List.ext_getElem
    · simp [hlen]
    · intro i h1 h2
      have hi : i < order.length := by simpa using h1
      have hi2 : i < 2 ^ k := by omega
      have hlt := cosetIdx_folded m k (x % 2 ^ (m - k)) i hkm hx0 hi2
      have hpair := pairedIndex_pow m _ (cosetIdx_lt (m + 1) (x % 2 ^ (m - k)) i)
      rw [if_pos hlt] at hpair
      simp only [List.getElem_map, List.getElem_range, Function.comp, hpair]
      rw [(hspec i hi).2.1]
  · intro o ho
    obtain ⟨i, hi, rfl⟩ := List.getElem_of_mem ho
    obtain ⟨e1, e2⟩ := min_pairedIndex m _ (cosetIdx_lt (m + 1) x order[i].1)
    simp [(hspec i hi).1, e1, e2]

/-! ## C43: honest proofs are accepted -/

/-- **C43** (honest proofs): whenever the prover produces a proof, the verifier accepts it and ends
with the same transcript, for every step list that passes the check, every number of queries, with or
without grinding, in coefficient and in evaluation form, for every combined quotient of at most
`2 * (max_degree + 1)` coefficients. -/
theorem C43_honest_accepted [DecidableEq F] [DecidableEq Root] (hL : L.Lawful A)
    (M : MerkleLib F Tree Root Path) (hM : M.Lawful) (T : FriTranscript S F Root)
    (prm : FriParams F) (n d : Nat) (g : OMap (List (FriPoly F))) (P : OMap (List (List F)))
    (gTrees : OMap Tree) (commitments : OMap Root) (theta : F)
    (items : List (List (Nat × Nat) × F × List F)) (cQ : List F)
    (hS : FriSetup L M prm A n g P gTrees commitments theta items cQ)
    (hd : prm.maxDegree + 1 = 2 ^ d) (hrd : prm.r ≤ d + 1)
    (hcQ : cQ ≠ []) (hdeg : cQ.length ≤ 2 * (prm.maxDegree + 1))
    (Q0 Q : FriPoly F) (qTree : Tree) (s0 : Nat) (hs0 : prm.stepList[0]? = some s0)
    (hQ : Q0.Has L n cQ) (hpre : friPrecommit L M Q0 (L.domain n) s0 = some (qTree, Q))
    (fuel nonce : Nat) (st st' : S) (proof : FriProof F Root Path)
    (h : friProve L M T prm g Q gTrees qTree fuel nonce st = some (proof, st')) :
    friVerify M T prm proof commitments theta items st = some (true, st') := by
  unfold friProve at h
  by_cases hchk : checkStepList prm.stepList prm.r = true
  swap
  · rw [if_neg hchk] at h; simp at h
  rw [if_pos hchk] at h
  obtain ⟨rest, st1, trees, as, fs, g', hsteps, hpos, hsum, hcp, hH, hal, hg', hfne, hflen, hfeval⟩ :=
    friProve_commit hL M T prm n hS.adicity hS.rounds hS.domains cQ hchk hcQ Q0 Q qTree s0 hs0 hQ
      hpre st
  simp only [hsteps, hcp, hg', Option.bind_eq_bind, Option.bind_some] at h
  have hdok := friDegreeOk_honest prm d hd hrd (g'.final L) hfne
    (hflen (d + 1) (by rw [pow_succ, ← hd]; omega))
  have hq := fun st st' qs => friQueries_honest hL M hM T prm n g P gTrees commitments theta items cQ
    hS s0 rest hsteps hpos hsum as trees fs (g'.final L) hH hfeval prm.lambda st st' qs
  unfold friVerify
  rw [if_pos hchk]
  cases hgr : prm.useGrinding with
  | false =>
    simp only [hgr, Bool.false_eq_true, if_false, Option.bind_some] at h
    cases hqs : friQueries L M T prm g gTrees trees fs (g'.final L) prm.lambda st1 with
    | none => rw [hqs] at h; simp at h
    | some r =>
      obtain ⟨st2, qs⟩ := r
      rw [hqs] at h
      simp only [Option.bind_some, Option.some.injEq, Prod.mk.injEq] at h
      obtain ⟨rfl, rfl⟩ := h
      simp only [hdok, if_true, hsteps, hal, Option.bind_eq_bind, Option.bind_some,
        Bool.false_eq_true, if_false]
      exact hq st1 st2 qs hqs
  | true =>
    simp only [hgr, if_true] at h
    cases hp : powGenerate T.toIntTranscript 32 prm.grindingParameter fuel st1 nonce with
    | none => rw [hp] at h; simp at h
    | some r =>
      obtain ⟨pow, st2⟩ := r
      rw [hp] at h
      simp only [Option.bind_some] at h
      cases hqs : friQueries L M T prm g gTrees trees fs (g'.final L) prm.lambda st2 with
      | none => rw [hqs] at h; simp at h
      | some r =>
        obtain ⟨st3, qs⟩ := r
        rw [hqs] at h
        simp only [Option.bind_some, Option.some.injEq, Prod.mk.injEq] at h
        obtain ⟨rfl, rfl⟩ := h
        simp only [hdok, if_true, hsteps, hal, Option.bind_eq_bind, Option.bind_some,
          C47_generate_verify _ _ _ _ _ _ _ _ hp]
        exact hq st2 st3 qs hqs

/-- The query point lies in the domain if the challenge is nonzero. -/
theorem friQuery_point [Fintype F] (hL : L.Lawful A) (n : Nat) (hn : n ≤ A) (p : Nat)
    (hcard : Fintype.card F = p) (hdvd : 2 ^ n ∣ p - 1) (c : F) (hc : c ≠ 0) :
    ∃ i, c ^ ((p - 1) / 2 ^ n) = (L.domain n).elem i := by
  have h1 : (c ^ ((p - 1) / 2 ^ n)) ^ 2 ^ n = 1 := by
    rw [← pow_mul, Nat.div_mul_cancel hdvd, ← hcard]
    exact FiniteField.pow_card_sub_one_eq_one c hc
  have hprim := root_primitive hL n hn
  have hpos : NeZero (2 ^ n) := ⟨(Nat.pow_pos (by norm_num)).ne'⟩
  obtain ⟨i, _, hi⟩ := hprim.eq_pow_of_pow_eq_one h1
  exact ⟨i, hi.symm⟩

/-- **C43** (when there is a proof): over a field of `p` elements the prover always produces a proof,
provided the query challenges are nonzero and the nonce search succeeds. -/
theorem C43_prover_defined [DecidableEq F] [DecidableEq Root] [Fintype F] (hL : L.Lawful A)
    (M : MerkleLib F Tree Root Path) (hM : M.Lawful) (T : FriTranscript S F Root)
    (prm : FriParams F) (n : Nat) (g : OMap (List (FriPoly F))) (P : OMap (List (List F)))
    (gTrees : OMap Tree) (commitments : OMap Root) (theta : F)
    (items : List (List (Nat × Nat) × F × List F)) (cQ : List F)
    (hS : FriSetup L M prm A n g P gTrees commitments theta items cQ)
    (hsteps : checkStepList prm.stepList prm.r = true)
    (hcQ : cQ ≠ []) (hdeg : cQ.length ≤ 2 ^ n)
    (Q0 Q : FriPoly F) (qTree : Tree) (s0 : Nat) (hs0 : prm.stepList[0]? = some s0)
    (hQ : Q0.Has L n cQ) (hpre : friPrecommit L M Q0 (L.domain n) s0 = some (qTree, Q))
    (hcard : Fintype.card F = prm.modulus) (hdvd : 2 ^ n ∣ prm.modulus - 1)
    (hch : ∀ st, (T.challenge st).2 ≠ 0)
    (fuel nonce : Nat) (hgrind : prm.useGrinding = true → ∀ st,
      (powGenerate T.toIntTranscript 32 prm.grindingParameter fuel st nonce).isSome) (st : S) :
    (friProve L M T prm g Q gTrees qTree fuel nonce st).isSome := by
  obtain ⟨rest, st1, trees, as, fs, g', hsl, hpos, hsum, hcp, hH, hal, hg', hfne, hflen, hfeval⟩ :=
    friProve_commit hL M T prm n hS.adicity hS.rounds hS.domains cQ hsteps hcQ Q0 Q qTree s0 hs0 hQ
      hpre st
  have hdom : ∀ st, ∃ i, (T.challenge st).2 ^ ((prm.modulus - 1) / 2 ^ n) = (L.domain n).elem i :=
    fun st => friQuery_point hL n hS.adicity prm.modulus hcard hdvd _ (hch st)
  have hq := fun st => friQueries_defined hL M hM T prm n g P gTrees commitments theta items cQ
    hS s0 rest hsl hpos hsum as trees fs (g'.final L) hH hfeval hdom prm.lambda st
  unfold friProve
  rw [if_pos hsteps]
  simp only [hsl, hcp, hg', Option.bind_eq_bind, Option.bind_some]
  cases hgr : prm.useGrinding with
  | false =>
    obtain ⟨r, hr⟩ := Option.isSome_iff_exists.mp (hq st1)
    simp [hr]
  | true =>
    obtain ⟨r, hr⟩ := Option.isSome_iff_exists.mp (hgrind hgr st1)
    obtain ⟨r', hr'⟩ := Option.isSome_iff_exists.mp (hq r.2)
    simp [hr, hr']

/-- **C43** (step list check): what `check_step_list` checks. -/
theorem C43_check_step_list (steps : List Nat) (r : Nat) :
    checkStepList steps r = true ↔
      (∀ s ∈ steps, 1 ≤ s ∧ s ≤ 10) ∧ steps.sum = r ∧ steps.getLast? = some 1 :=
  checkStepList_iff steps r

/-- **C43** (generated step lists): with draws between 1 and `max_step`, at least as many as `r`, the
generated list exists, has the sum `r`, entries between 1 and `max_step`, and ends with one. -/
theorem C43_random_step_list (maxStep r : Nat) (hm : 1 ≤ maxStep) (hr : 1 ≤ r) (draws : List Nat)
    (hdraws : ∀ d ∈ draws, 1 ≤ d ∧ d ≤ maxStep) (hlen : r ≤ draws.length) :
    ∃ steps, randomStepList maxStep r draws = some steps ∧ steps.sum = r ∧
      (∀ s ∈ steps, 1 ≤ s ∧ s ≤ maxStep) ∧ steps.getLast? = some 1 := by
  induction r using Nat.strong_induction_on generalizing draws with
  | _ r ih =>
  rw [randomStepList.eq_def]
  obtain ⟨k, rfl⟩ : ∃ k, r = k + 1 := ⟨r - 1, by omega⟩
  simp only
  by_cases h : k + 1 ≤ maxStep
  · rw [if_pos h]
    refine ⟨_, rfl, ?_, ?_, by simp⟩
    · simp only [stepListTail]
      split_ifs with h0 <;> simp [h0]
    · intro s hs
      simp only [stepListTail] at hs
      split_ifs at hs with h0 <;> simp at hs <;> omega
  · rw [if_neg h]
    cases draws with
    | nil => simp at hlen
    | cons d ds =>
      obtain ⟨h1, h2⟩ := hdraws d (by simp)
      simp only [List.length_cons] at hlen
      obtain ⟨steps, hst, hsum, hall, hlast⟩ := ih (k + 1 - d) (by omega) (by omega) ds
        (fun d' hd' => hdraws d' (by simp [hd'])) (by omega)
      simp only [if_pos (show d ≤ k + 1 by omega), hst, Option.map_some]
      refine ⟨_, rfl, by simp only [List.sum_cons, hsum]; omega, ?_, ?_⟩
      · intro s hs
        rcases List.mem_cons.mp hs with rfl | hs
        · omega
        · exact hall s hs
      · rw [List.getLast?_cons, hlast]; rfl

/-- **C43** (constructors): both constructors of the parameters give the domains that the theorems
above ask for, when the degree leaves room for the rounds. -/
theorem C43_params (L : FftLib F) (modulus : Nat) (steps : List Nat)
    (degreeLog lambda expandFactor : Nat) (useGrinding : Bool) (grindingParameter : Nat) :
    let prm := FriParams.ofStepList L modulus steps degreeLog lambda expandFactor useGrinding
      grindingParameter
    prm.r = steps.sum ∧ prm.maxDegree + 1 = 2 ^ degreeLog ∧
      ∀ t < prm.r, prm.D[t]? = some (L.domain (degreeLog + expandFactor - t)) := by
  refine ⟨rfl, ?_, fun t ht => ?_⟩
  · show (1 <<< degreeLog) - 1 + 1 = 2 ^ degreeLog
    rw [Nat.one_shiftLeft, Nat.sub_add_cancel (Nat.one_le_two_pow)]
  · have ht' : t < steps.sum := ht
    simp [FriParams.ofStepList, FftLib.domainSet, ht']

/-- **C43** (the random constructor): the parameters, when there are any, have `degree_log - 1` rounds
and pass the step list check if `2 ≤ degree_log` and `max_step ≤ 10`. -/
theorem C43_params_random (L : FftLib F) (modulus maxStep degreeLog lambda expandFactor : Nat)
    (draws : List Nat) (useGrinding : Bool) (grindingParameter : Nat)
    (hm : 1 ≤ maxStep ∧ maxStep ≤ 10) (hd : 2 ≤ degreeLog)
    (hdraws : ∀ d ∈ draws, 1 ≤ d ∧ d ≤ maxStep) (hlen : degreeLog - 1 ≤ draws.length) :
    ∃ prm, FriParams.ofMaxStep L modulus draws maxStep degreeLog lambda expandFactor useGrinding
        grindingParameter = some prm ∧ prm.r = degreeLog - 1 ∧ prm.maxDegree + 1 = 2 ^ degreeLog ∧
      checkStepList prm.stepList prm.r = true ∧
      ∀ t < prm.r, prm.D[t]? = some (L.domain (degreeLog + expandFactor - t)) := by
  obtain ⟨steps, hs, hsum, hall, hlast⟩ := C43_random_step_list maxStep (degreeLog - 1) hm.1 (by omega)
    draws hdraws hlen
  have hne : degreeLog ≠ 0 := by omega
  refine ⟨_, by
    simp only [FriParams.ofMaxStep, if_neg hne, hs, Option.bind_eq_bind, Option.bind_some]; rfl,
    rfl, ?_, ?_, ?_⟩
  · show (1 <<< degreeLog) - 1 + 1 = 2 ^ degreeLog
    rw [Nat.one_shiftLeft, Nat.sub_add_cancel (Nat.one_le_two_pow)]
  · exact (checkStepList_iff _ _).mpr ⟨fun s hs' => ⟨(hall s hs').1, (hall s hs').2.trans hm.2⟩, hsum,
      hlast⟩
  · intro t ht
    have ht' : t < degreeLog - 1 := ht
    simp [FftLib.domainSet, ht']

/-- **C43** (the degree test): the verifier accepts final polynomials of up to
`2 ^ (degree_log + 1 - r)` coefficients, twice the number an honest quotient of degree at most
`max_degree` folds to. -/
theorem C43_degree_test (prm : FriParams F) (d : Nat) (hd : prm.maxDegree + 1 = 2 ^ d)
    (hrd : prm.r ≤ d + 1) (final : List F) :
    friDegreeOk prm final = true ↔ final ≠ [] ∧ final.length ≤ 2 ^ (d + 1 - prm.r) := by
  have hpos : 0 < 2 ^ (d + 1 - prm.r) := Nat.pow_pos (by norm_num)
  unfold friDegreeOk
  by_cases h0 : final = []
  · simp [h0]
  · have h0' : final.length ≠ 0 := by simpa using h0
    simp only [hd, Nat.log2_two_pow, if_neg h0', if_neg (show ¬ d + 1 < prm.r by omega),
      decide_eq_true_eq, h0, ne_eq, not_false_eq_true, true_and]
    omega

/-- **C43** (finding): with `expand_factor = 1` the protocol tests no degree at all. Every vector of
`2 ^ (degree_log + 1)` values is accepted as a combined quotient, whatever its degree: for every
vector `v` there is a polynomial with these values, and whenever the prover runs on it (and the
claimed quotient has the same values) the verifier accepts. -/
theorem C43_expand_one_accepts_everything [DecidableEq F] [DecidableEq Root] (hL : L.Lawful A)
    (M : MerkleLib F Tree Root Path) (hM : M.Lawful) (T : FriTranscript S F Root)
    (steps : List Nat) (degreeLog lambda modulus : Nat) (useGrinding : Bool) (gp : Nat)
    (prm : FriParams F)
    (hprm : prm = FriParams.ofStepList L modulus steps degreeLog lambda 1 useGrinding gp)
    (hn : degreeLog + 1 ≤ A) (v : List F) (hv : v.length = 2 ^ (degreeLog + 1)) :
    ∃ cQ : List F, cQ ≠ [] ∧ (FriPoly.dfs v).Has L (degreeLog + 1) cQ ∧
      ∀ (g : OMap (List (FriPoly F))) (P : OMap (List (List F))) (gTrees : OMap Tree)
        (commitments : OMap Root) (theta : F) (items : List (List (Nat × Nat) × F × List F))
        (Q : FriPoly F) (qTree : Tree) (s0 fuel nonce : Nat) (st st' : S)
        (proof : FriProof F Root Path),
        FriSetup L M prm A (degreeLog + 1) g P gTrees commitments theta items cQ →
        prm.stepList[0]? = some s0 →
        friPrecommit L M (.dfs v) (L.domain (degreeLog + 1)) s0 = some (qTree, Q) →
        friProve L M T prm g Q gTrees qTree fuel nonce st = some (proof, st') →
        friVerify M T prm proof commitments theta items st = some (true, st') := by
  obtain ⟨c, hc, hcv⟩ := evals_surjective hL (degreeLog + 1) hn v hv
  have hpos : 0 < 2 ^ (degreeLog + 1) := Nat.pow_pos (by norm_num)
  have hc0 : c ≠ [] := by rintro rfl; simp at hc; omega
  refine ⟨c, hc0, ⟨degreeLog + 1, le_rfl, hcv.symm, hc.le⟩, ?_⟩
  intro g P gTrees commitments theta items Q qTree s0 fuel nonce st st' proof hS hs0 hpre h
  obtain ⟨_, hmax, _⟩ := C43_params L modulus steps degreeLog lambda 1 useGrinding gp
  rw [← hprm] at hmax
  exact C43_honest_accepted hL M hM T prm (degreeLog + 1) degreeLog g P gTrees commitments theta
    items c hS hmax (by have := hS.rounds; omega) hc0
    (by rw [hmax, hc, pow_succ]; omega) (.dfs v) Q qTree s0 hs0
    ⟨degreeLog + 1, le_rfl, hcv.symm, hc.le⟩ hpre fuel nonce st st' proof h

/-- **C43** (finding): a query challenge equal to zero is not a domain point; the prover's assertion
fails. -/
theorem C43_zero_challenge [DecidableEq F] (hL : L.Lawful A) (M : MerkleLib F Tree Root Path)
    (T : FriTranscript S F Root) (prm : FriParams F) (n : Nat) (hn : n ≤ A)
    (hD : prm.D[0]? = some (L.domain n)) (hexp : (prm.modulus - 1) / 2 ^ n ≠ 0)
    (g : OMap (List (FriPoly F))) (gTrees : OMap Tree) (trees : List Tree) (fs : List (FriPoly F))
    (final : List F) (st : S) (h0 : (T.challenge st).2 = 0) :
    friQuery L M T prm g gTrees trees fs final st = none := by
  have hsz : ∀ k, (L.domain k).size = 2 ^ k := fun _ => rfl
  unfold friQuery
  cases hs : prm.stepList[0]? with
  | none => simp [hD]
  | some s0 =>
    simp only [hD, Option.bind_eq_bind, Option.bind_some, hsz, h0, zero_pow hexp]
    have : calculateS (0 : F) (friQueryIndex (L.domain n) 0) s0 (L.domain n) = none := by
      unfold calculateS
      simp only [if_neg (elem_ne_zero hL n hn _)]
      cases cosetIndices (friQueryIndex (L.domain n) 0) (L.domain n).size s0 <;> rfl
    rw [this]
    rfl

/-! ## a concrete run -/

instance : Fact (Nat.Prime 17) := ⟨by norm_num⟩

/-- roots of unity of `ZMod 17` -/
def exRoots17 : Nat → ZMod 17
  | 0 => 1
  | 1 => -1
  | 2 => 4
  | 3 => 2
  | _ => 6

theorem exLib17_lawful : (FftLib.ofRoots exRoots17).Lawful 4 :=
  FftLib.ofRoots_lawful exRoots17 4 (by decide) rfl (fun _ => rfl) (by decide)

/-- a transcript that counts -/
def exFriTranscript : FriTranscript Nat (ZMod 17) (List (List (ZMod 17))) where
  absorb := fun s b => s + b.length
  intChallenge := fun s => (s + 1, s)
  absorbRoot := fun s r => s + r.length
  challenge := fun s => (s + 1, ((s % 16 + 1 : Nat) : ZMod 17))

/-- the polynomial `3 + 5 X + X²`, committed on eight points, two rounds, three queries -/
def exFriParams : FriParams (ZMod 17) :=
  FriParams.ofStepList (FftLib.ofRoots exRoots17) 17 [1, 1] 2 3 1 false 0

def exFriTree : List (List (ZMod 17)) :=
  ((friPrecommitBatch (FftLib.ofRoots exRoots17) (listMerkle (ZMod 17)) [.coeff [3, 5, 1]]
    ((FftLib.ofRoots exRoots17).domain 3) 1).getD [])

/-- opened at `7`: the value is `2` and the quotient `12 + X` -/
def exFriItems : List (List (Nat × Nat) × ZMod 17 × List (ZMod 17)) := [([(0, 0)], 2, [-7, 1])]

def exFriQTree : List (List (ZMod 17)) :=
  ((friPrecommit (FftLib.ofRoots exRoots17) (listMerkle (ZMod 17)) (.coeff [12, 1])
    ((FftLib.ofRoots exRoots17).domain 3) 1).map Prod.fst).getD []

/-- The inputs of this run belong together. -/
theorem exFriSetup : FriSetup (FftLib.ofRoots exRoots17) (listMerkle (ZMod 17)) exFriParams 4 3
    [(0, [.coeff [3, 5, 1]])] [(0, [[3, 5, 1]])] [(0, exFriTree)] [(0, exFriTree)] 1 exFriItems
    [12, 1] where
  adicity := by norm_num
  rounds := by decide
  domains := (C43_params (FftLib.ofRoots exRoots17) 17 [1, 1] 2 3 1 false 0).2.2
  batches := .cons ⟨rfl, .cons ⟨rfl, by decide⟩ .nil⟩ .nil
  trees := by
    intro k fs h
    simp only [List.mem_singleton, Prod.mk.injEq] at h
    obtain ⟨rfl, rfl⟩ := h
    exact ⟨exFriTree, 1, rfl, by decide +kernel, rfl, rfl⟩
  ids := by
    intro it hit id hid
    simp only [exFriItems, List.mem_singleton] at hit
    subst hit
    simp only [List.mem_singleton] at hid
    subst hid
    exact ⟨_, rfl⟩
  dens := by
    intro it hit i
    simp only [exFriItems, List.mem_singleton] at hit
    subst hit
    rw [← elem_mod exLib17_lawful 3 (by norm_num)]
    have : i % 2 ^ 3 < 8 := Nat.mod_lt _ (by norm_num)
    generalize i % 2 ^ 3 = j at *
    revert this
    revert j
    decide +kernel
  quotient := by
    intro i
    rw [← elem_mod exLib17_lawful 3 (by norm_num)]
    have : i % 2 ^ 3 < 8 := Nat.mod_lt _ (by norm_num)
    generalize i % 2 ^ 3 = j at *
    revert this
    revert j
    decide +kernel

/-- The run: the prover succeeds, and the verifier accepts what it made. -/
example : ((friProve (FftLib.ofRoots exRoots17) (listMerkle (ZMod 17)) exFriTranscript exFriParams
      [(0, [.coeff [3, 5, 1]])] (.coeff [12, 1]) [(0, exFriTree)] exFriQTree 0 0 0).bind fun r =>
    (friVerify (listMerkle (ZMod 17)) exFriTranscript exFriParams r.1 [(0, exFriTree)] 1 exFriItems
      0).map fun v => (v.1, v.2 == r.2)) = some (true, true) := by decide +kernel

/-- A wrong claimed value is rejected in the same run. -/
example : ((friProve (FftLib.ofRoots exRoots17) (listMerkle (ZMod 17)) exFriTranscript exFriParams
      [(0, [.coeff [3, 5, 1]])] (.coeff [12, 1]) [(0, exFriTree)] exFriQTree 0 0 0).bind fun r =>
    (friVerify (listMerkle (ZMod 17)) exFriTranscript exFriParams r.1 [(0, exFriTree)] 1
      [([(0, 0)], 3, [-7, 1])] 0).map fun v => v.1) = some false := by decide +kernel

/-- The hypotheses of C41 and C42 are met: a domain of eight points. -/
example : (FftLib.ofRoots exRoots17).Lawful 4 ∧ (2 : ZMod 17) ≠ 0 ∧
    cosetIndices 5 8 2 = some [(5, 1), (7, 3)] ∧ correctOrder 5 8 2 [(5, 1), (7, 3)] =
      some [(0, 1), (1, 1)] := ⟨exLib17_lawful, by decide, by decide, by decide⟩

/-- A generated step list. -/
example : randomStepList 3 7 [2, 1, 3, 3, 3, 3, 3] = some [2, 1, 3, 1] := by decide

end Crypto3Zk
