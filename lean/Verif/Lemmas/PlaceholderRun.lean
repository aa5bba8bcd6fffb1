import Verif.Lemmas.PlaceholderPoints
import Verif.Lemmas.LookupTotal
import Verif.Lemmas.PermutationMain

/-!
# The runs of the placeholder preprocessor and prover, unpacked
-/

set_option linter.unusedSectionVars false

namespace Crypto3Zk

open Polynomial

variable {F : Type} [Field F] [DecidableEq F] {S H Com Pr Data Obj : Type}
variable {L : FftLib F} {A n : Nat}

/-! ## the commitment scheme -/

theorem CommScheme.run_append (C : CommScheme F S Com Pr Data Obj) (o : Obj) (a b : List (LpcOp F)) :
    C.run o (a ++ b) = (C.run o a).bind fun o => C.run o b := by
  simp [CommScheme.run, List.foldlM_append]

theorem CommScheme.run_trans {C : CommScheme F S Com Pr Data Obj} {o o1 o2 : Obj} {a b : List (LpcOp F)}
    (h1 : C.run o a = some o1) (h2 : C.run o1 b = some o2) : C.run o (a ++ b) = some o2 := by
  rw [C.run_append, h1]; exact h2

theorem CommScheme.run_nil (C : CommScheme F S Com Pr Data Obj) (o : Obj) : C.run o [] = some o := rfl

theorem CommScheme.run_one (C : CommScheme F S Com Pr Data Obj) (o : Obj) (op : LpcOp F) :
    C.run o [op] = C.apply o op := by
  simp [CommScheme.run]

theorem CommScheme.RootLaws.run {C : CommScheme F S Com Pr Data Obj} (hC : C.RootLaws) (k : Nat)
    (ops : List (LpcOp F)) : ∀ o o', C.run o ops = some o' → LpcOp.commit k ∉ ops →
    C.root o' k = C.root o k := by
  induction ops with
  | nil => intro o o' h _; simp [CommScheme.run] at h; rw [h]
  | cons op ops ih =>
    intro o o' h hk
    unfold CommScheme.run at h
    rw [List.foldlM_cons] at h
    obtain ⟨o1, h1, h⟩ := Option.bind_eq_some_iff.1 h
    rw [ih o1 o' h (fun hm => hk (List.mem_cons_of_mem _ hm)),
      hC.apply o o1 op k h1 (fun he => hk (he ▸ List.mem_cons_self))]

/-! ## lengths -/

theorem coefficients_column (hL : L.Lawful A) (hn : n ≤ A) (v : List F) (hv : v.length = 2 ^ n) :
    (L.coefficients v).length ≤ 2 ^ n ∧ (L.domain n).evals (L.coefficients v) = v := by
  obtain ⟨c, hc, he⟩ := evals_surjective hL n hn v hv
  obtain ⟨-, h2, h3⟩ := hL.coefficients n hn c hc.le
  rw [he] at h2 h3
  refine ⟨h2.trans ?_, ?_⟩
  · rw [hc]; exact max_le Nat.one_le_two_pow le_rfl
  · conv_rhs => rw [← he]
    simp only [FriDomain.evals, h3]

theorem permProve_shape (hL : L.Lawful A) (hn : n ≤ A) (ch : S → F × S) (pre : PermData F)
    (hu : pre.usableRows ≤ 2 ^ n) (column : Nat → Option (List F)) (gi : List Nat) (st st' : S)
    (res : PermResult F) (h : permProve ch L n pre column gi st = some (res, st')) :
    res.V.length ≤ 2 ^ n ∧ (∀ p ∈ res.partitions, p.length ≤ 2 ^ n) ∧
      res.partitions.length = pre.parts - 1 ∧ pre.parts ≠ 0 ∧ (∃ cols, gi.mapM column = some cols) ∧
      gi.length = pre.sId.length ∧ gi.length = pre.sSigma.length ∧
      st' = (drawN ch (pre.parts - 1) (ch (ch st).2).2).2 := by
  unfold permProve at h
  dsimp only at h
  by_cases h0 : gi.length ≠ pre.sId.length ∨ gi.length ≠ pre.sSigma.length
  · rw [if_pos h0] at h; simp at h
  rw [if_neg h0] at h
  simp only [not_or, ne_eq, not_not] at h0
  obtain ⟨cols, hcols, h⟩ := Option.bind_eq_some_iff.1 h
  obtain ⟨rest, hrest, h⟩ := Option.bind_eq_some_iff.1 h
  have hv : (1 :: rest).length = 2 ^ n := by
    rw [List.length_cons, (runningProduct_spec _ _ _ _ _ _ hrest).1]
    have := Nat.one_le_two_pow (n := n)
    omega
  split_ifs at h with h1 h2
  · obtain ⟨g, hg, h⟩ := Option.bind_eq_some_iff.1 h
    obtain ⟨g', hg', h⟩ := Option.bind_eq_some_iff.1 h
    simp only [Option.some.injEq, Prod.mk.injEq] at h
    obtain ⟨rfl, rfl⟩ := h
    exact ⟨(coefficients_column hL hn _ hv).1, by simp, by simp [h2], by omega, ⟨cols, hcols⟩, h0.1, h0.2, rfl⟩
  · obtain ⟨r, hr, h⟩ := Option.bind_eq_some_iff.1 h
    obtain ⟨g, hg, h⟩ := Option.bind_eq_some_iff.1 h
    obtain ⟨g', hg', h⟩ := Option.bind_eq_some_iff.1 h
    simp only [Option.some.injEq, Prod.mk.injEq] at h
    obtain ⟨rfl, rfl⟩ := h
    simp only [not_or, ne_eq, not_not] at h1
    refine ⟨(coefficients_column hL hn _ hv).1, ?_, ?_, h1.2.2, ⟨cols, hcols⟩, h0.1, h0.2, rfl⟩
    · intro p hp
      obtain ⟨v, hv', rfl⟩ := List.mem_map.1 hp
      exact (coefficients_column hL hn _
        ((partLoop_rows hL n hn _ _ _ _ _ _ hv hv hu hr).1 v hv')).1
    · rw [List.length_map]
      have := (partLoop_verify n pre.usableRows 0 _ _ _ _ _ _ _ (by
        rw [length_drawN, h1.1]; omega) (by rw [h1.2.1]) hr).2
      rw [this, length_drawN]

theorem lookupPartLoop_length (usable : Nat) :
    ∀ (zs : List ((F[X] × F[X]) × F)) (prev cur : List F) (f : F[X]) (r : List (List F) × F[X] × List F),
      prev.length = 2 ^ n → cur.length = 2 ^ n → lookupPartLoop L n usable zs prev cur f = some r →
      ∀ v ∈ r.1, v.length = 2 ^ n := by
  intro zs
  induction zs with
  | nil => intro prev cur f r _ _ h; simp [lookupPartLoop] at h; subst h; simp
  | cons z zs ih =>
    intro prev cur f r hp hc h
    obtain ⟨⟨g, h'⟩, alpha⟩ := z
    simp only [lookupPartLoop, Option.bind_eq_bind, Option.bind_eq_some_iff, Option.some.injEq] at h
    obtain ⟨cur', hcur, r', hr, rfl⟩ := h
    have hl : cur'.length = 2 ^ n := by rw [(updateLookupPart_spec hcur).1, hc]
    intro v hv
    rcases List.mem_cons.1 hv with rfl | hv
    · exact hl
    · exact ih _ _ _ _ hl hl hr v hv

theorem lookupProve_shape {ch : S → F × S} {absorb : Com → S → S} {commit : List (List F) → Com}
    {t : PlonkTable F} {sys : LookupSystem F} {pre : LookupData F} {st st' : S} {res : LookupResult F}
    (h : LookupSetup L A n t sys pre)
    (hsort : Sortable (compressedInputs t sys n (ch st).1) (compressedValues t sys n pre.usable (ch st).1)
      (2 ^ n) pre.usable)
    (hp : lookupProve ch absorb commit L n t sys pre st = some (res, st')) :
    (∀ c ∈ res.sorted, c.length = 2 ^ n) ∧ res.V.length = 2 ^ n ∧
      (∀ p ∈ res.partitions, p.length = 2 ^ n) ∧
      res.partitions.length = (sys.parts pre.mqc).length - 1 := by
  obtain ⟨theta, beta, gamma, alphas, alphas3, values, inputs, gg, hh, R⟩ :=
    lookupProve_run ch absorb commit n t sys pre st st' res hp
  have hs := R.h_sorted
  rw [R.valueRows h, R.inputRows h, R.h_theta, sortPolynomials_eq hsort, Option.some_inj] at hs
  have hV := (lookupV_spec R.h_V).1
  refine ⟨?_, hV, ?_, ?_⟩
  · intro c hc
    rw [← hs] at hc
    exact length_finished_col _ _ hc
  · rcases R.h_F2 with ⟨_, h2, _⟩ | ⟨_, _, _, r, g, hd, hr, h4, _⟩
    · rw [h2]; simp
    · rw [h4]; exact lookupPartLoop_length _ _ _ _ _ _ hV hV hr
  · rcases R.h_F2 with ⟨h1, h2, _⟩ | ⟨h1, hg, hh', r, g, hd, hr, h4, _⟩
    · rw [h2, h1]; rfl
    · have hal : alphas.length = (sys.parts pre.mqc).length - 1 := by rw [R.h_alphas, length_drawN]
      rw [h4, (lookupPartLoop_eval n pre.usable 0 _ _ _ _ _ _ _ (by rw [List.length_map, hg]; omega)
        (by rw [List.length_map, hh']; omega) hr).1, hal]

/-- The verifier's lookup argument with a commitment that may be missing. -/
theorem lookupVerify_option (ch : S → F × S) (absorb : Com → S → S) (com : Com) (sys : LookupSystem F)
    (mqc : Nat) (ev : Nat → Int → ColumnType → Option F) (c : LookupClaims F) (st : S) :
    lookupVerify ch (fun (com : Option Com) st => com.elim st (absorb · st)) (some com) sys mqc ev c st =
      lookupVerify ch absorb com sys mqc ev c st := rfl

/-! ## the preprocessor -/

/-- What the preprocessor computed. -/
structure PreFacts (C : CommScheme F S Com Pr Data Obj) (T : PlonkTranscript S F H Com)
    (L : FftLib F) (n fuel : Nat) (d : TableDesc) (c : Circuit F) (order : List PlonkVar) (delta : F)
    (mqc : Nat) (hash : H) (t : PlonkTable F) (obj : Obj) (pd : PublicData F H Com Data) (o0 : Obj) :
    Prop where
  perm : permPreprocess L n fuel d c.copies order delta mqc = some pd.perm
  indices : permutedIndices d order = some pd.common.permutedColumns
  run : C.run obj (fixedOps L n pd.perm t) = some o0
  root : C.root o0 FIXED_BATCH = some pd.common.fixedCommitment
  rotations : columnsRotations d c = some pd.common.rotations
  data : C.preprocess o0 (T.key pd.common.hash pd.common.fixedCommitment) = some pd.common.schemeData
  desc : pd.common.desc = d
  degree : pd.common.maxGatesDegree = c.maxDegree
  parts : pd.common.permutationParts = pd.perm.parts
  lookupParts : pd.common.lookupParts = (c.lookups.parts mqc).length
  hashEq : pd.common.hash = hash
  mqcEq : pd.common.mqc = mqc
  lagrange0 : pd.common.lagrange0 = pd.perm.lagrange0
  Z : pd.common.Z = vanishingCoeffs (2 ^ n)
  limit : mqc = 0 ∨ mqc > c.maxDegree
  degree_pos : c.maxDegree ≠ 0

theorem preprocess_facts {C : CommScheme F S Com Pr Data Obj} {T : PlonkTranscript S F H Com}
    {fuel : Nat} {d : TableDesc} {c : Circuit F} {order : List PlonkVar} {delta : F}
    {mqc : Nat} {hash : H} {t : PlonkTable F} {obj : Obj} {pd : PublicData F H Com Data} {o0 : Obj}
    (h : placeholderPreprocess C T L n fuel d c order delta mqc hash t obj = some (pd, o0)) :
    PreFacts C T L n fuel d c order delta mqc hash t obj pd o0 := by
  unfold placeholderPreprocess at h
  by_cases h0 : c.maxDegree = 0
  · rw [if_pos h0] at h; simp at h
  rw [if_neg h0] at h
  obtain ⟨pre, hpre, h⟩ := Option.bind_eq_some_iff.1 h
  obtain ⟨gi, hgi, h⟩ := Option.bind_eq_some_iff.1 h
  by_cases h1 : mqc = 0 ∨ mqc > c.maxDegree
  · rw [if_pos h1] at h
    obtain ⟨o, ho, h⟩ := Option.bind_eq_some_iff.1 h
    obtain ⟨com, hcom, h⟩ := Option.bind_eq_some_iff.1 h
    obtain ⟨rots, hrots, h⟩ := Option.bind_eq_some_iff.1 h
    obtain ⟨data, hdata, h⟩ := Option.bind_eq_some_iff.1 h
    simp only [Option.some.injEq, Prod.mk.injEq] at h
    obtain ⟨rfl, rfl⟩ := h
    exact ⟨hpre, hgi, ho, hcom, hrots, hdata, rfl, rfl, rfl, rfl, rfl, rfl, rfl, rfl, h1, h0⟩
  · rw [if_neg h1] at h; simp at h

/-- The parts of the preprocessed data. -/
theorem permPreprocess_shape (hL : L.Lawful A) (hn : n ≤ A) {fuel : Nat} {d : TableDesc}
    {cs : List (PlonkVar × PlonkVar)} {order : List PlonkVar} {delta : F} {mqc : Nat} {pre : PermData F}
    (h : permPreprocess L n fuel d cs order delta mqc = some pre) :
    pre.sId.length = order.length ∧ pre.sSigma.length = order.length ∧
      (∀ p ∈ pre.sId, p.length ≤ 2 ^ n) ∧ (∀ p ∈ pre.sSigma, p.length ≤ 2 ^ n) ∧
      pre.qLast = L.coefficients (lagrangeValues (2 ^ n) d.usableRows) ∧
      pre.qBlind = L.coefficients (blindValues (2 ^ n) d.usableRows) ∧
      pre.lagrange0 = L.coefficients (lagrangeValues (2 ^ n) 0) ∧
      pre.qLast.length ≤ 2 ^ n ∧ pre.qBlind.length ≤ 2 ^ n ∧ pre.lagrange0.length ≤ 2 ^ n ∧
      pre.usableRows = d.usableRows ∧ pre.mqc = mqc ∧ permutationParts order.length mqc = some pre.parts := by
  unfold permPreprocess at h
  obtain ⟨perm, hperm, h⟩ := Option.bind_eq_some_iff.1 h
  obtain ⟨gi, hgi, h⟩ := Option.bind_eq_some_iff.1 h
  obtain ⟨parts, hparts, h⟩ := Option.bind_eq_some_iff.1 h
  simp only [Option.some.injEq] at h
  subst h
  have hgl : gi.length = order.length := (length_mapM _ _ _ hgi)
  refine ⟨by simp [identityValues], by simp [permutationValues, hgl], ?_, ?_, rfl, rfl, rfl, ?_, ?_, ?_,
    rfl, rfl, hparts⟩
  · intro p hp
    obtain ⟨v, hv, rfl⟩ := List.mem_map.1 hp
    refine (coefficients_column hL hn v ?_).1
    simp only [identityValues, List.mem_map] at hv
    obtain ⟨i, _, rfl⟩ := hv
    simp [identityRow_eq]
  · intro p hp
    obtain ⟨v, hv, rfl⟩ := List.mem_map.1 hp
    refine (coefficients_column hL hn v ?_).1
    simp only [permutationValues, List.mem_map] at hv
    obtain ⟨i, _, rfl⟩ := hv
    simp
  · exact (coefficients_column hL hn _ (by simp [lagrangeValues])).1
  · exact (coefficients_column hL hn _ (by simp [blindValues])).1
  · exact (coefficients_column hL hn _ (by simp [lagrangeValues])).1

/-! ## the prover -/

/-- What the prover computes on the way. -/
structure HonestData (F S Com Obj : Type) [Field F] where
  vcom : Com
  /-- coefficients of the polynomials of the permutation argument -/
  perm : List (List F)
  fp : F[X] × F[X] × F[X]
  st1 : S
  /-- values of the sorted columns and of the other polynomials of the lookup argument -/
  sorted : List (List F)
  vl : List (List F)
  fl : F[X] × F[X] × F[X] × F[X]
  lcom : Option Com
  st2 : S
  pcom : Option Com
  fg : F[X]
  st4 : S
  chunks : List (List F)
  qcom : Com
  pts : List (LpcOp F)
  obj : Obj
  st6 : S

/-- The calls of the prover before it asks for evaluations. -/
def honestOps (L : FftLib F) (n : Nat) (c : Circuit F) (t : PlonkTable F)
    (perm sorted vl chunks : List (List F)) : List (LpcOp F) :=
  [LpcOp.append VARIABLE_BATCH (t.witnesses.map .dfs), .append VARIABLE_BATCH (t.publicInputs.map .dfs),
    .commit VARIABLE_BATCH] ++
  ((perm.map fun p => .append PERMUTATION_BATCH [dfsOf L n p]) ++
  ((if c.lookups.gates ≠ [] then sortedOps sorted else []) ++
  ((vl.map fun p => .append PERMUTATION_BATCH [.dfs p]) ++
  ((if c.copies ≠ [] ∨ c.lookups.gates ≠ [] then [.commit PERMUTATION_BATCH] else []) ++
  [.append QUOTIENT_BATCH (chunks.map (chunkForm L)), .commit QUOTIENT_BATCH]))))

/-- The run of the prover. -/
structure HonestRun (C : CommScheme F S Com Pr Data Obj) (T : PlonkTranscript S F H Com)
    (L : FftLib F) (n : Nat) (d : TableDesc) (c : Circuit F) (order : List PlonkVar)
    (pd : PublicData F H Com Data) (t : PlonkTable F) (obj : Obj) (proof : PlaceholderProof F Com Pr)
    (D : HonestData F S Com Obj) : Prop where
  permCase : (c.copies = [] ∧ D.perm = [] ∧ D.fp = (0, 0, 0) ∧
      D.st1 = T.absorb D.vcom (C.setup obj (T.key pd.common.hash pd.common.fixedCommitment) pd.common.schemeData).1) ∨
    (c.copies ≠ [] ∧ ∃ gi res, permutedIndices d order = some gi ∧
      permProve T.challenge L n pd.perm (fun i => (t.column i).map L.coefficients) gi
        (T.absorb D.vcom
          (C.setup obj (T.key pd.common.hash pd.common.fixedCommitment) pd.common.schemeData).1) =
        some (res, D.st1) ∧ D.perm = res.V :: res.partitions ∧
      D.fp = (toPoly res.F0, toPoly res.F1, toPoly res.F2))
  lookupCase : (c.lookups.gates = [] ∧ D.sorted = [] ∧ D.vl = [] ∧ D.fl = (0, 0, 0, 0) ∧ D.lcom = none ∧
      D.st2 = D.st1) ∨
    (c.lookups.gates ≠ [] ∧ ∃ (commit : List (List F) → Option Com) (res : LookupResult F) (com : Com),
      lookupProve T.challenge (fun (com : Option Com) st => com.elim st (T.absorb · st)) commit L n t
        c.lookups (lookupData pd.perm) D.st1 = some (res, D.st2) ∧ commit res.sorted = some com ∧
      D.lcom = some com ∧ C.root D.obj LOOKUP_BATCH = some com ∧ D.sorted = res.sorted ∧
      D.vl = res.V :: res.partitions ∧ D.fl = (res.F0, res.F1, res.F2, res.F3))
  permCommit : (c.copies = [] ∧ c.lookups.gates = [] ∧ D.pcom = none) ∨
    ((c.copies ≠ [] ∨ c.lookups.gates ≠ []) ∧ ∃ com, D.pcom = some com ∧
      C.root D.obj PERMUTATION_BATCH = some com)
  gate : gateProve T.challenge L n t c.gates pd.common.maxGatesDegree
    (gateMask (toPoly pd.perm.qLast) (toPoly pd.perm.qBlind))
    (D.pcom.elim D.st2 (T.absorb · D.st2)) = some (D.fg, D.st4)
  chunks : quotientSplit (polyDiv (coeffsOf (consolidate [D.fp.1, D.fp.2.1, D.fp.2.2, D.fl.1, D.fl.2.1,
      D.fl.2.2.1, D.fl.2.2.2, D.fg] (drawN T.challenge 8 D.st4).1)) pd.common.Z) pd.perm.sId.length
    c.lookupDegreeBound pd.common.maxGatesDegree d.rows pd.common.mqc = some D.chunks
  points : proverPoints L n d c pd.perm pd.common t.selectors.length proof.challenge = some D.pts
  run : C.run (C.setup obj (T.key pd.common.hash pd.common.fixedCommitment) pd.common.schemeData).2
    (honestOps L n c t D.perm D.sorted D.vl D.chunks ++ D.pts) = some D.obj
  vroot : C.root D.obj VARIABLE_BATCH = some D.vcom
  qroot : C.root D.obj QUOTIENT_BATCH = some D.qcom
  fixedRoot : C.root D.obj FIXED_BATCH = C.root obj FIXED_BATCH
  eval : C.proofEval D.obj (T.challenge (T.absorb D.qcom (drawN T.challenge 8 D.st4).2)).2 =
    some (proof.eval, D.st6)
  challenge : proof.challenge = (T.challenge (T.absorb D.qcom (drawN T.challenge 8 D.st4).2)).1
  commitments : proof.commitments = (putCommitment (putCommitment (OMap.insert [] VARIABLE_BATCH D.vcom)
    LOOKUP_BATCH D.lcom) PERMUTATION_BATCH D.pcom).insert QUOTIENT_BATCH D.qcom

theorem columnPoints_ops {rots : List (List Int)} {batch first base count : Nat} {omega y : F}
    {ops : List (LpcOp F)} (h : columnPoints rots batch first base count omega y = some ops) :
    ∀ op ∈ ops, ∃ k i xs, op = .pointsTo k i xs := by
  unfold columnPoints at h
  obtain ⟨l, hl, h⟩ := Option.bind_eq_some_iff.1 h
  simp only [Option.some.injEq] at h
  subst h
  intro op hop
  obtain ⟨o, ho, hop⟩ := List.mem_flatten.1 hop
  have hf := forall₂_of_mapM _ _ _ hl
  obtain ⟨j, hj, he⟩ := List.getElem_of_mem ho
  have := (List.forall₂_iff_get.1 hf).2 j (by rw [hf.length_eq]; exact hj) hj
  simp only [List.get_eq_getElem, he] at this
  obtain ⟨rs, _, this⟩ := Option.bind_eq_some_iff.1 this
  simp only [Option.some.injEq] at this
  subst this
  obtain ⟨r, _, rfl⟩ := List.mem_map.1 hop
  exact ⟨_, _, _, rfl⟩

theorem proverPoints_ops {d : TableDesc} {c : Circuit F} {pre : PermData F}
    {common : CommonData F H Com Data} {selectors : Nat} {y : F} {ops : List (LpcOp F)}
    (h : proverPoints L n d c pre common selectors y = some ops) :
    ∀ op ∈ ops, (∃ k xs, op = .points k xs) ∨ ∃ k i xs, op = .pointsTo k i xs := by
  unfold proverPoints at h
  obtain ⟨v, hv, h⟩ := Option.bind_eq_some_iff.1 h
  obtain ⟨f, hf, h⟩ := Option.bind_eq_some_iff.1 h
  simp only [Option.some.injEq] at h
  subst h
  intro op hop
  simp only [List.mem_append, List.mem_map] at hop
  rcases hop with ((((((hop | h) | h) | h) | h) | ⟨i, _, rfl⟩) | h) | hop
  · exact Or.inr (columnPoints_ops hv op hop)
  · split_ifs at h with hc
    · rw [List.mem_singleton.1 h]; exact Or.inl ⟨_, _, rfl⟩
    · simp at h
  · split_ifs at h with hc
    · rw [List.mem_singleton.1 h]; exact Or.inr ⟨_, _, _, rfl⟩
    · simp at h
  · split_ifs at h with hc
    · simp only [List.mem_cons, List.not_mem_nil, or_false] at h
      rcases h with rfl | rfl | rfl | rfl
      · exact Or.inr ⟨_, _, _, rfl⟩
      all_goals exact Or.inl ⟨_, _, rfl⟩
    · simp at h
  · rw [List.mem_singleton.1 h]; exact Or.inl ⟨_, _, rfl⟩
  · exact Or.inr ⟨_, _, _, rfl⟩
  · simp only [List.mem_cons, List.not_mem_nil, or_false] at h
    rcases h with rfl | rfl <;> exact Or.inr ⟨_, _, _, rfl⟩
  · exact Or.inr (columnPoints_ops hf op hop)

theorem permStage_spec {C : CommScheme F S Com Pr Data Obj} {T : PlonkTranscript S F H Com} {d : TableDesc}
    {c : Circuit F} {order : List PlonkVar} {pre : PermData F} {t : PlonkTable F} {obj : Obj} {st : S}
    {fp : F[X] × F[X] × F[X]} {obj' : Obj} {st' : S}
    (h : permStage C T L n d c order pre t obj st = some (fp, obj', st')) :
    ∃ perm : List (List F),
      C.run obj (perm.map fun p => .append PERMUTATION_BATCH [dfsOf L n p]) = some obj' ∧
      ((c.copies = [] ∧ perm = [] ∧ fp = (0, 0, 0) ∧ st' = st) ∨
        (c.copies ≠ [] ∧ ∃ gi res, permutedIndices d order = some gi ∧
          permProve T.challenge L n pre (fun i => (t.column i).map L.coefficients) gi st = some (res, st') ∧
          perm = res.V :: res.partitions ∧ fp = (toPoly res.F0, toPoly res.F1, toPoly res.F2))) := by
  unfold permStage at h
  by_cases h0 : c.copies.length > 0
  · rw [if_pos h0] at h
    obtain ⟨gi, hgi, h⟩ := Option.bind_eq_some_iff.1 h
    obtain ⟨r, hr, h⟩ := Option.bind_eq_some_iff.1 h
    obtain ⟨o, ho, h⟩ := Option.bind_eq_some_iff.1 h
    simp only [Option.some.injEq, Prod.mk.injEq] at h
    obtain ⟨rfl, rfl, rfl⟩ := h
    exact ⟨r.1.V :: r.1.partitions, ho, Or.inr ⟨List.length_pos_iff.1 h0, gi, r.1, hgi, hr, rfl, rfl⟩⟩
  · rw [if_neg h0] at h
    simp only [Option.some.injEq, Prod.mk.injEq] at h
    obtain ⟨rfl, rfl, rfl⟩ := h
    exact ⟨[], rfl, Or.inl ⟨List.length_eq_zero_iff.1 (by omega), rfl, rfl, rfl⟩⟩

theorem lookupStage_spec {C : CommScheme F S Com Pr Data Obj} {T : PlonkTranscript S F H Com}
    {c : Circuit F} {pre : PermData F} {t : PlonkTable F} {obj : Obj} {st : S}
    {fl : F[X] × F[X] × F[X] × F[X]} {lcom : Option Com} {obj' : Obj} {st' : S}
    (h : lookupStage C T L n c pre t obj st = some (fl, lcom, obj', st')) :
    ∃ (sorted vl : List (List F)) (obj1 : Obj),
      C.run obj (if c.lookups.gates ≠ [] then sortedOps sorted else []) = some obj1 ∧
      C.run obj1 (vl.map fun p => .append PERMUTATION_BATCH [.dfs p]) = some obj' ∧
      ((c.lookups.gates = [] ∧ sorted = [] ∧ vl = [] ∧ fl = (0, 0, 0, 0) ∧ lcom = none ∧ st' = st) ∨
        (c.lookups.gates ≠ [] ∧ ∃ (commit : List (List F) → Option Com) (res : LookupResult F) (com : Com),
          lookupProve T.challenge (fun (com : Option Com) st => com.elim st (T.absorb · st)) commit L n t
            c.lookups (lookupData pre) st = some (res, st') ∧ commit res.sorted = some com ∧
          lcom = some com ∧ C.root obj1 LOOKUP_BATCH = some com ∧ sorted = res.sorted ∧
          vl = res.V :: res.partitions ∧ fl = (res.F0, res.F1, res.F2, res.F3))) := by
  unfold lookupStage at h
  by_cases h0 : c.lookups.gates.length > 0
  · rw [if_pos h0] at h
    have hne := List.length_pos_iff.1 h0
    obtain ⟨r, hr, h⟩ := Option.bind_eq_some_iff.1 h
    obtain ⟨o, ho, h⟩ := Option.bind_eq_some_iff.1 h
    obtain ⟨com, hcom, h⟩ := Option.bind_eq_some_iff.1 h
    obtain ⟨o', ho', h⟩ := Option.bind_eq_some_iff.1 h
    simp only [Option.some.injEq, Prod.mk.injEq] at h
    obtain ⟨rfl, rfl, rfl, rfl⟩ := h
    refine ⟨r.1.sorted, r.1.V :: r.1.partitions, o, by rw [if_pos hne]; exact ho, ho',
      Or.inr ⟨hne, _, r.1, com, hr, ?_, rfl, hcom, rfl, rfl, rfl⟩⟩
    rw [ho]; exact hcom
  · rw [if_neg h0] at h
    simp only [Option.some.injEq, Prod.mk.injEq] at h
    obtain ⟨rfl, rfl, rfl, rfl⟩ := h
    have he := List.length_eq_zero_iff.1 (show c.lookups.gates.length = 0 by omega)
    exact ⟨[], [], obj, by simp [he, CommScheme.run_nil], rfl, Or.inl ⟨he, rfl, rfl, rfl, rfl, rfl⟩⟩

theorem permCommitStage_spec {C : CommScheme F S Com Pr Data Obj} {T : PlonkTranscript S F H Com}
    {c : Circuit F} {obj : Obj} {st : S} {pcom : Option Com} {obj' : Obj} {st' : S}
    (h : permCommitStage C T c obj st = some (pcom, obj', st')) :
    C.run obj (if c.copies ≠ [] ∨ c.lookups.gates ≠ [] then [.commit PERMUTATION_BATCH] else []) =
      some obj' ∧ st' = pcom.elim st (T.absorb · st) ∧
      ((c.copies = [] ∧ c.lookups.gates = [] ∧ pcom = none) ∨
        ((c.copies ≠ [] ∨ c.lookups.gates ≠ []) ∧ ∃ com, pcom = some com ∧
          C.root obj' PERMUTATION_BATCH = some com)) := by
  unfold permCommitStage at h
  by_cases h0 : c.copies.length > 0 ∨ c.lookups.gates.length > 0
  · rw [if_pos h0] at h
    have hne : c.copies ≠ [] ∨ c.lookups.gates ≠ [] :=
      h0.imp List.length_pos_iff.1 List.length_pos_iff.1
    obtain ⟨o, ho, h⟩ := Option.bind_eq_some_iff.1 h
    obtain ⟨com, hcom, h⟩ := Option.bind_eq_some_iff.1 h
    simp only [Option.some.injEq, Prod.mk.injEq] at h
    obtain ⟨rfl, rfl, rfl⟩ := h
    exact ⟨by rw [if_pos hne, CommScheme.run_one]; exact ho, rfl, Or.inr ⟨hne, com, rfl, hcom⟩⟩
  · rw [if_neg h0] at h
    simp only [Option.some.injEq, Prod.mk.injEq] at h
    obtain ⟨rfl, rfl, rfl⟩ := h
    have h1 : c.copies = [] := List.length_eq_zero_iff.1 (by omega)
    have h2 : c.lookups.gates = [] := List.length_eq_zero_iff.1 (by omega)
    exact ⟨by simp [h1, h2, CommScheme.run_nil], rfl, Or.inl ⟨h1, h2, rfl⟩⟩

theorem prove_run {C : CommScheme F S Com Pr Data Obj} (hC : C.RootLaws) {T : PlonkTranscript S F H Com}
    {d : TableDesc} {c : Circuit F} {order : List PlonkVar} {pd : PublicData F H Com Data}
    {t : PlonkTable F} {obj : Obj} {proof : PlaceholderProof F Com Pr}
    (h : placeholderProve C T L n d c order pd t obj = some proof) :
    ∃ D, HonestRun C T L n d c order pd t obj proof D := by
  unfold placeholderProve at h
  dsimp only at h
  set s0 := C.setup obj (T.key pd.common.hash pd.common.fixedCommitment) pd.common.schemeData with hs0
  obtain ⟨o1, ho1, h⟩ := Option.bind_eq_some_iff.1 h
  obtain ⟨vcom, hvcom, h⟩ := Option.bind_eq_some_iff.1 h
  obtain ⟨⟨fp, o2, st1⟩, hps, h⟩ := Option.bind_eq_some_iff.1 h
  obtain ⟨⟨fl, lcom, o3, st2⟩, hls, h⟩ := Option.bind_eq_some_iff.1 h
  obtain ⟨⟨pcom, o4, st3⟩, hpc, h⟩ := Option.bind_eq_some_iff.1 h
  obtain ⟨⟨fg, st4⟩, hg, h⟩ := Option.bind_eq_some_iff.1 h
  obtain ⟨chunks, hch, h⟩ := Option.bind_eq_some_iff.1 h
  obtain ⟨o5, ho5, h⟩ := Option.bind_eq_some_iff.1 h
  obtain ⟨qcom, hqcom, h⟩ := Option.bind_eq_some_iff.1 h
  obtain ⟨pts, hpts, h⟩ := Option.bind_eq_some_iff.1 h
  obtain ⟨o6, ho6, h⟩ := Option.bind_eq_some_iff.1 h
  obtain ⟨⟨ev, st6⟩, hev, h⟩ := Option.bind_eq_some_iff.1 h
  simp only [Option.some.injEq] at h
  subst h
  obtain ⟨perm, hperm, hpcase⟩ := permStage_spec hps
  obtain ⟨sorted, vl, o3', hso, hvl, hlcase⟩ := lookupStage_spec hls
  obtain ⟨hpr, rfl, hpcom⟩ := permCommitStage_spec hpc
  have hop := proverPoints_ops hpts
  have nopts : ∀ k, LpcOp.commit k ∉ pts := by
    intro k hk
    rcases hop _ hk with ⟨_, _, h⟩ | ⟨_, _, _, h⟩ <;> simp at h
  have novl : ∀ k (l : List (List F)) (g : List F → List (FriPoly F)),
      LpcOp.commit k ∉ l.map fun p => LpcOp.append PERMUTATION_BATCH (g p) := by
    intro k l g hk
    obtain ⟨_, _, h⟩ := List.mem_map.1 hk
    simp at h
  have noq : ∀ k, k ≠ QUOTIENT_BATCH → LpcOp.commit k ∉ ([.append QUOTIENT_BATCH (chunks.map (chunkForm L)),
      .commit QUOTIENT_BATCH] : List (LpcOp F)) := by
    intro k hk; simp [hk]
  have nop : ∀ k, k ≠ PERMUTATION_BATCH → LpcOp.commit k ∉ (if c.copies ≠ [] ∨ c.lookups.gates ≠ [] then
      [LpcOp.commit PERMUTATION_BATCH] else [] : List (LpcOp F)) := by
    intro k hk; split_ifs <;> simp [hk]
  have nol : ∀ k, k ≠ LOOKUP_BATCH → LpcOp.commit k ∉ (if c.lookups.gates ≠ [] then
      sortedOps sorted else [] : List (LpcOp F)) := by
    intro k hk; split_ifs <;> simp [sortedOps, hk]
  -- roots after the last stages
  have hq6 : ∀ k, C.root o6 k = C.root o5 k := fun k => hC.run k _ _ _ ho6 (nopts k)
  have h54 : ∀ k, k ≠ QUOTIENT_BATCH → C.root o5 k = C.root o4 k := fun k hk =>
    hC.run k _ _ _ ho5 (noq k hk)
  have h43 : ∀ k, k ≠ PERMUTATION_BATCH → C.root o4 k = C.root o3 k := fun k hk =>
    hC.run k _ _ _ hpr (nop k hk)
  have h33 : ∀ k, C.root o3 k = C.root o3' k := fun k => hC.run k _ _ _ hvl (novl k _ _)
  have h32 : ∀ k, k ≠ LOOKUP_BATCH → C.root o3' k = C.root o2 k := fun k hk =>
    hC.run k _ _ _ hso (nol k hk)
  have h21 : ∀ k, C.root o2 k = C.root o1 k := fun k => hC.run k _ _ _ hperm (novl k _ _)
  have h10 : ∀ k, k ≠ VARIABLE_BATCH → C.root o1 k = C.root obj k := fun k hk => by
    rw [hC.run k _ _ _ ho1 (by simp [hk]), hs0, hC.setup]
  refine ⟨⟨vcom, perm, fp, st1, sorted, vl, fl, lcom, st2, pcom, fg, st4, chunks, qcom, pts, o6, st6⟩, ?_⟩
  refine ⟨hpcase, ?_, ?_, hg, hch, hpts, ?_, ?_, ?_, ?_, hev, rfl, rfl⟩
  · rcases hlcase with hl | ⟨hne, commit, res, com, h1, h2, h3, h4, h5⟩
    · exact Or.inl hl
    · refine Or.inr ⟨hne, commit, res, com, h1, h2, h3, ?_, h5⟩
      show C.root o6 LOOKUP_BATCH = some com
      rw [hq6, h54 _ (by decide), h43 _ (by decide), h33, h4]
  · rcases hpcom with hl | ⟨hne, com, h1, h2⟩
    · exact Or.inl hl
    · refine Or.inr ⟨hne, com, h1, ?_⟩
      show C.root o6 PERMUTATION_BATCH = some com
      rw [hq6, h54 _ (by decide), h2]
  · exact CommScheme.run_trans (CommScheme.run_trans ho1 (CommScheme.run_trans hperm
      (CommScheme.run_trans hso (CommScheme.run_trans hvl (CommScheme.run_trans hpr ho5))))) ho6
  · show C.root o6 VARIABLE_BATCH = some vcom
    rw [hq6, h54 _ (by decide), h43 _ (by decide), h33, h32 _ (by decide), h21, hvcom]
  · show C.root o6 QUOTIENT_BATCH = some qcom
    rw [hq6, hqcom]
  · show C.root o6 FIXED_BATCH = _
    rw [hq6, h54 _ (by decide), h43 _ (by decide), h33, h32 _ (by decide), h21, h10 _ (by decide)]

end Crypto3Zk
