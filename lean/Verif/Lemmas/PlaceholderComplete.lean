import Verif.Lemmas.PlaceholderFinal

/-!
# An honest placeholder proof is accepted
-/

set_option linter.unusedSectionVars false

namespace Crypto3Zk

open Polynomial

variable {F : Type} [Field F] [DecidableEq F] {S H Com Pr Data Obj : Type}
variable {L : FftLib F} {A n : Nat}

theorem bind_step {X Y : Type} {x : Option X} {a : X} {f : X → Option Y} {r : Option Y} (h : x = some a)
    (h' : f a = r) : (x >>= f) = r := by
  subst h; exact h'

theorem ite_step {X Y Z : Type} {P : Prop} [Decidable P] {a : Option X} {b : X → Option Y} {e : Option Y}
    {jp : Y → Option Z} {v : Y} {r : Option Z} (h : (if P then (a >>= b) else e) = some v) (h' : jp v = r) :
    (if P then (a >>= fun x => b x >>= jp) else (e >>= jp)) = r := by
  by_cases hP : P
  · rw [if_pos hP] at h ⊢
    rw [← bind_assoc, h]; exact h'
  · rw [if_neg hP] at h ⊢
    rw [h]; exact h'

theorem ite_step2 {X X' Y Z : Type} {P : Prop} [Decidable P] {a : Option X} {b : X → Option X'}
    {k : X → X' → Option Y} {e : Option Y} {jp : Y → Option Z} {v : Y} {r : Option Z}
    (h : (if P then (a >>= fun x => b x >>= k x) else e) = some v) (h' : jp v = r) :
    (if P then (a >>= fun x => b x >>= fun x' => k x x' >>= jp) else (e >>= jp)) = r := by
  have := ite_step h h'
  simpa only [bind_assoc] using this

theorem find_putCommitment (m : OMap Com) (k k' : Nat) (o : Option Com) :
    (putCommitment m k o).find k' = if k' = k ∧ o.isSome then o else m.find k' := by
  cases o with
  | none => simp [putCommitment]
  | some com => simp [putCommitment, OMap.find_insert]

theorem sorted_putCommitment (m : OMap Com) (k : Nat) (o : Option Com) (h : m.Sorted) :
    (putCommitment m k o).Sorted := by
  cases o with
  | none => exact h
  | some com => exact OMap.sorted_insert m k com h

variable {fuel : Nat} {d : TableDesc} {c : Circuit F} {order : List PlonkVar} {t : PlonkTable F}
variable {C : CommScheme F S Com Pr Data Obj} {T : PlonkTranscript S F H Com} {delta : F} {mqc : Nat}
  {hash : H} {obj o0 : Obj} {pd : PublicData F H Com Data} {proof : PlaceholderProof F Com Pr}
  {D : HonestData F S Com Obj}

/-- The commitments of the proof. -/
theorem HonestRun.find_commitments (h : HonestRun C T L n d c order pd t o0 proof D) :
    proof.commitments.find VARIABLE_BATCH = some D.vcom ∧
    proof.commitments.find LOOKUP_BATCH = D.lcom ∧
    proof.commitments.find PERMUTATION_BATCH = D.pcom ∧
    proof.commitments.find QUOTIENT_BATCH = some D.qcom ∧
    proof.commitments.Sorted ∧
    ∀ k, k ≠ VARIABLE_BATCH → k ≠ LOOKUP_BATCH → k ≠ PERMUTATION_BATCH → k ≠ QUOTIENT_BATCH →
      proof.commitments.find k = none := by
  rw [h.commitments]
  simp only [OMap.find_insert, find_putCommitment]
  refine ⟨by simp [OMap.find], ?_, ?_, by simp, ?_, ?_⟩
  · cases D.lcom <;> simp [OMap.find]
  · cases D.pcom <;> simp [OMap.find]
  · exact OMap.sorted_insert _ _ _ (sorted_putCommitment _ _ _ (sorted_putCommitment _ _ _
      (OMap.sorted_insert _ _ _ OMap.sorted_nil)))
  · intro k h1 h2 h3 h4
    rw [if_neg h4, if_neg (by tauto), if_neg (by tauto), if_neg h1]
    rfl

theorem HonestRun.coms (h : HonestRun C T L n d c order pd t o0 proof D)
    (hroot : C.root o0 FIXED_BATCH = some pd.common.fixedCommitment) (k : Nat) (com : Com) :
    (proof.commitments.insert FIXED_BATCH pd.common.fixedCommitment).find k = some com ↔
      LpcOp.commit k ∈ fixedOps L n pd.perm t ++ honestOps L n c t D.perm D.sorted D.vl D.chunks ∧
        C.root D.obj k = some com := by
  obtain ⟨f1, f2, f3, f4, -, f6⟩ := h.find_commitments
  rw [OMap.find_insert, List.mem_append, commit_mem_fixedOps, commit_mem_honestOps]
  by_cases hk0 : k = FIXED_BATCH
  · subst hk0
    rw [if_pos rfl, h.fixedRoot, hroot]
    simp
  rw [if_neg hk0]
  by_cases hk1 : k = VARIABLE_BATCH
  · subst hk1
    rw [f1, h.vroot]; simp
  by_cases hk4 : k = LOOKUP_BATCH
  · subst hk4
    rw [f2]
    rcases h.lookupCase with ⟨h1, -, -, -, h2, -⟩ | ⟨h1, -, -, com', -, -, h2, h3, -⟩
    · rw [h2]; simp [h1]
    · rw [h2, h3]; simp [h1]
  by_cases hk2 : k = PERMUTATION_BATCH
  · subst hk2
    rw [f3]
    rcases h.permCommit with ⟨h1, h1', h2⟩ | ⟨h1, com', h2, h3⟩
    · rw [h2]; simp [h1, h1']
    · rw [h2, h3]; simp [h1]
  by_cases hk3 : k = QUOTIENT_BATCH
  · subst hk3
    rw [f4, h.qroot]; simp
  · rw [f6 k hk1 hk4 hk2 hk3]
    simp only [reduceCtorEq, false_iff, not_and]
    intro hh
    exfalso
    tauto

theorem permutedVars_nil {cs : List (PlonkVar × PlonkVar)} (h : cs = []) : permutedVars cs = [] := by
  subst h; rfl

/-- The first challenge of the lookup argument. -/
theorem HonestRun.theta (h : HonestRun C T L n d c order pd t o0 proof D)
    (hlib : L.Lawful A) (hn : n ≤ A) (hu : pd.perm.usableRows ≤ 2 ^ n) :
    (T.challenge D.st1).1 = lookupTheta T c pd.perm.parts D.vcom
      (C.setup o0 (T.key pd.common.hash pd.common.fixedCommitment) pd.common.schemeData).1 := by
  unfold lookupTheta
  rcases h.permCase with ⟨h1, -, -, h2⟩ | ⟨h1, gi, res, -, h2, -⟩
  · rw [if_pos h1, h2]
  · rw [if_neg h1, (permProve_shape hlib hn _ _ hu _ _ _ _ _ h2).2.2.2.2.2.2.2, Nat.add_comm 2]
    rfl

/-- What the verifier gets from an honest proof: the values of the polynomials. -/
theorem HonestRun.lengths (hS : PlaceholderSetup L A n fuel d c order t)
    (hp : PreFacts C T L n fuel d c order delta mqc hash t obj pd o0)
    (h : HonestRun C T L n d c order pd t o0 proof D)
    (hsort : c.lookups.gates ≠ [] → Sortable (compressedInputs t c.lookups n (T.challenge D.st1).1)
      (compressedValues t c.lookups n d.usableRows (T.challenge D.st1).1) (2 ^ n) d.usableRows) :
    HonestLengths n c pd.perm t D.perm D.sorted D.vl D.chunks ∧ D.perm.length = pd.perm.parts ∧
      (∀ V partitions, D.vl = V :: partitions → partitions.length = (c.lookups.parts mqc).length - 1) ∧
      (c.copies ≠ [] → pd.perm.parts ≠ 0) := by
  have hrows := hS.rows
  have husable := hS.usable
  obtain ⟨s1, s2, s3, s4, -, -, -, s8, s9, -, s11, s12, s13⟩ := permPreprocess_shape hS.lib hS.small hp.perm
  have hu : pd.perm.usableRows ≤ 2 ^ n := by omega
  have hperm : (∀ p ∈ D.perm, p.length ≤ 2 ^ n) ∧ D.perm.length = pd.perm.parts ∧
      (c.copies = [] → D.perm = []) ∧ (c.copies ≠ [] → pd.perm.parts ≠ 0) := by
    rcases h.permCase with ⟨h1, h2, -⟩ | ⟨h1, gi, res, -, h2, h3, -⟩
    · refine ⟨by simp [h2], ?_, fun _ => h2, fun h0 => absurd h1 h0⟩
      have ho : order = [] := by
        rw [List.eq_nil_iff_forall_not_mem]
        intro v hv
        rw [hS.members, permutedVars_nil h1] at hv
        exact absurd hv (by simp)
      rw [ho] at s13
      simp [permutationParts] at s13
      rw [h2, ← s13]; rfl
    · obtain ⟨a1, a2, a3, a4, -⟩ := permProve_shape hS.lib hS.small _ _ hu _ _ _ _ _ h2
      refine ⟨?_, ?_, fun h0 => absurd h0 h1, fun _ => a4⟩
      · rw [h3]
        intro p hp
        rcases List.mem_cons.1 hp with rfl | hp
        · exact a1
        · exact a2 p hp
      · rw [h3, List.length_cons, a3]; omega
  have hlook : (∀ p ∈ D.sorted, p.length = 2 ^ n) ∧ (∀ p ∈ D.vl, p.length = 2 ^ n) ∧
      (c.lookups.gates = [] → D.sorted = [] ∧ D.vl = []) ∧
      ∀ V partitions, D.vl = V :: partitions → partitions.length = (c.lookups.parts mqc).length - 1 := by
    rcases h.lookupCase with ⟨h1, h2, h3, -⟩ | ⟨h1, commit, res, com, h2, -, -, -, h3, h4, -⟩
    · exact ⟨by simp [h2], by simp [h3], fun _ => ⟨h2, h3⟩, by simp [h3]⟩
    · have := lookupProve_shape (hS.lookupSetup hp h1) (by simp only [lookupData, s11]; exact hsort h1) h2
      obtain ⟨a1, a2, a3, a4⟩ := this
      refine ⟨by rw [h3]; exact a1, ?_, fun h0 => absurd h0 h1, ?_⟩
      · rw [h4]
        intro p hp
        rcases List.mem_cons.1 hp with rfl | hp
        · exact a2
        · exact a3 p hp
      · intro V ps he
        rw [h4] at he
        obtain ⟨-, rfl⟩ := List.cons.inj he
        simpa only [lookupData, s12] using a4
  have hch := (C36_prover_chunks _ _ _ _ _ _ _ h.chunks).2.1
  rw [hrows] at hch
  exact ⟨⟨s3, s4, s8, s9, hS.fits.rect, hperm.1, hlook.1, hlook.2.1, hch, hperm.2.2.1, hlook.2.2.1⟩,
    hperm.2.1, hlook.2.2.2, hperm.2.2.2⟩

/-- The points of an honest run. -/
theorem HonestRun.pts_eq (hS : PlaceholderSetup L A n fuel d c order t)
    (hp : PreFacts C T L n fuel d c order delta mqc hash t obj pd o0)
    (h : HonestRun C T L n d c order pd t o0 proof D) :
    D.pts = pointOps L n d c pd.common.rotations pd.perm.parts d.usableRows
      (pd.common.permutedColumns.length * 2 + 2) proof.challenge ∧
    verifierPoints L n d c pd.common proof.challenge = some D.pts ∧
    pd.perm.sId.length = pd.common.permutedColumns.length ∧
    pd.perm.sSigma.length = pd.common.permutedColumns.length := by
  obtain ⟨hlen, -⟩ := columnsRotations_spec d c _ hp.rotations
  obtain ⟨s1, s2, -⟩ := permPreprocess_shape hS.lib hS.small hp.perm
  have hg : pd.common.permutedColumns.length = order.length := length_mapM _ _ _ hp.indices
  have h1 := h.points
  rw [hS.fits.selector, proverPoints_eq L n d c pd.perm pd.common _ hlen, s1, s2, ← hg, Option.some_inj,
    hp.parts, hp.desc] at h1
  have h2 := verifierPoints_eq L n d c pd.common proof.challenge hlen
  rw [hp.parts, hp.desc] at h2
  have e : pd.common.permutedColumns.length + pd.common.permutedColumns.length + 2 =
    pd.common.permutedColumns.length * 2 + 2 := by omega
  rw [e] at h1
  refine ⟨h1.symm, by rw [h2, h1], by omega, by omega⟩

/-- The storage of an honest run. -/
theorem HonestRun.storage {Has : FriPoly F → List F → Prop} {maxLen : Nat} {okPoints : List F → Prop}
    {okSetup : S → Prop} (hC : C.Complete Has maxLen okPoints okSetup) (hH : HasLaws L n Has)
    (hmax : 2 ^ n ≤ maxLen)
    (hS : PlaceholderSetup L A n fuel d c order t)
    (hp : PreFacts C T L n fuel d c order delta mqc hash t C.new pd o0)
    (h : HonestRun C T L n d c order pd t o0 proof D)
    (hset : okSetup (T.key pd.common.hash pd.common.fixedCommitment))
    (hok : ∀ k i, i < (honestPolys L pd.perm t D.perm D.sorted D.vl D.chunks k).length →
      okPoints (lpcRequested k i D.pts))
    (hsort : c.lookups.gates ≠ [] → Sortable (compressedInputs t c.lookups n (T.challenge D.st1).1)
      (compressedValues t c.lookups n d.usableRows (T.challenge D.st1).1) (2 ^ n) d.usableRows) :
    HonestStorage L n d c pd.common.rotations pd.perm.parts d.usableRows pd.common.permutedColumns.length
      proof.challenge pd.perm t D.perm D.sorted D.vl D.chunks proof.eval.1 ∧
    ∃ v st', C.run (C.setup o0 (T.key pd.common.hash pd.common.fixedCommitment) pd.common.schemeData).2
        (honestSizes c (honestPolys L pd.perm t D.perm D.sorted D.vl D.chunks) ++ D.pts) = some v ∧
      C.verifyEval v proof.eval (proof.commitments.insert FIXED_BATCH pd.common.fixedCommitment)
        (T.challenge (T.absorb D.qcom (drawN T.challenge 8 D.st4).2)).2 = some (true, st') := by
  obtain ⟨hl, -, -⟩ := h.lengths hS hp hsort
  obtain ⟨hpts, -, hs1, hs2⟩ := h.pts_eq hS hp
  obtain ⟨hrl, -, -, hmem⟩ := columnsRotations_spec d c _ hp.rotations
  have hops : ∀ op ∈ D.pts, (∃ k xs, op = .points k xs) ∨ ∃ k i xs, op = .pointsTo k i xs := by
    rw [hpts]; exact pointOps_ops _ _ _ _ _ _ _ _ _
  have hsess := honest_session hS.lib hS.small hH hmax hl hops hok
  obtain ⟨hfind, v, hv, hver⟩ := hC _ _ _ _ _ hsess o0 D.obj _ _ D.st6 _ _ hp.run hp.data hset h.run h.eval
  obtain ⟨σ, hfacts⟩ := (hS.permSetup hp).facts
  have hsm : pd.common.permutedColumns.length ≤ d.width := by
    have h1 : pd.common.permutedColumns.toFinset ⊆ Finset.range (d.witness + d.publicInput + d.constant) := by
      intro x hx
      exact Finset.mem_range.2 (hfacts.bound x (List.mem_toFinset.1 hx))
    have h2 := Finset.card_le_card h1
    rw [List.toFinset_card_of_nodup hfacts.nodup, Finset.card_range] at h2
    unfold TableDesc.width
    omega
  refine ⟨⟨hS.fits, hrl, hS.width, hs1, hs2, hsm, fun g hg => (hmem g hg 0).2 (Or.inl rfl), ?_⟩, v, D.st6, hv, ?_⟩
  · intro k hk
    rw [← hpts]
    apply hfind
    rw [List.mem_append, commit_mem_fixedOps, commit_mem_honestOps]
    tauto
  · exact hver _ (OMap.sorted_insert _ _ _ h.find_commitments.2.2.2.2.1) (h.coms hp.root)

/-- The verifier's part of an honest run up to the final equation: the values of the prover's polynomials,
the same transcript, and an accepted opening. -/
theorem HonestRun.verify {Has : FriPoly F → List F → Prop} {maxLen : Nat} {okPoints : List F → Prop}
    {okSetup : S → Prop} (hC : C.Complete Has maxLen okPoints okSetup) (hH : HasLaws L n Has)
    (hmax : 2 ^ n ≤ maxLen)
    (hS : PlaceholderSetup L A n fuel d c order t)
    (hp : PreFacts C T L n fuel d c order delta mqc hash t C.new pd o0)
    (h : HonestRun C T L n d c order pd t o0 proof D)
    (hset : okSetup (T.key pd.common.hash pd.common.fixedCommitment))
    (hok : ∀ k i, i < (honestPolys L pd.perm t D.perm D.sorted D.vl D.chunks k).length →
      okPoints (lpcRequested k i D.pts))
    (hsort : c.lookups.gates ≠ [] → Sortable (compressedInputs t c.lookups n (T.challenge D.st1).1)
      (compressedValues t c.lookups n d.usableRows (T.challenge D.st1).1) (2 ^ n) d.usableRows)
    (asserts : Bool) :
    placeholderVerify C T L n asserts d c pd.common proof o0 = some (decide (
      (consolidate [D.fp.1, D.fp.2.1, D.fp.2.2, D.fl.1, D.fl.2.1, D.fl.2.2.1, D.fl.2.2.2, D.fg]
        (drawN T.challenge 8 D.st4).1).eval proof.challenge =
      evalPoly (vanishingCoeffs (2 ^ n)) proof.challenge *
        consolidateQuotient (D.chunks.map (evalPoly · proof.challenge)) (2 ^ n) proof.challenge)) := by
  obtain ⟨hz, v, st', hv, hver⟩ := h.storage hC hH hmax hS hp hset hok hsort
  obtain ⟨hl, hperml, hlookl, hparts0⟩ := h.lengths hS hp hsort
  obtain ⟨hpts, hvpts, hs1, hs2⟩ := h.pts_eq hS hp
  obtain ⟨c1, c2, c3, c4, -, -⟩ := h.find_commitments
  obtain ⟨s1, s2, s3, s4, q1, q2, q3, -, -, -, s11, s12, s13⟩ := permPreprocess_shape hS.lib hS.small hp.perm
  have hu : pd.perm.usableRows ≤ 2 ^ n := by have := hS.rows; have := hS.usable; omega
  obtain ⟨m, hm1, hm2⟩ := hz.permSize
  obtain ⟨ev, hev1, hev2⟩ := hz.columnsAtY_eq
  obtain ⟨hte, htl⟩ := hS.evaluations hp hev2
  obtain ⟨hq1, hq2⟩ := hz.quotient
  -- the permutation argument
  have eperm : (if c.copies.length > 0 then do
      let claims ← readPermClaims proof.eval.1 d pd.common pd.common.permutedColumns.length
        (evalPoly pd.perm.qLast proof.challenge) (evalPoly pd.perm.qBlind proof.challenge)
      permVerify T.challenge pd.common.lagrange0 pd.common.mqc pd.common.permutationParts claims proof.challenge
        (T.absorb D.vcom (C.setup o0 (T.key pd.common.hash pd.common.fixedCommitment) pd.common.schemeData).1)
    else some ((0, 0, 0), T.absorb D.vcom
      (C.setup o0 (T.key pd.common.hash pd.common.fixedCommitment) pd.common.schemeData).1)) =
      some ((D.fp.1.eval proof.challenge, D.fp.2.1.eval proof.challenge, D.fp.2.2.eval proof.challenge),
        D.st1) := by
    rcases h.permCase with ⟨h1, h2, h3, h4⟩ | ⟨h1, gi, res, hgi, h2, h3, h4⟩
    · rw [if_neg (by simp [h1]), h3, h4]; simp
    · rw [if_pos (List.length_pos_iff.2 h1)]
      obtain ⟨-, -, a3, a4, ⟨cols, hcols⟩, -⟩ := permProve_shape hS.lib hS.small _ _ hu _ _ _ _ _ h2
      rw [hp.indices, Option.some_inj] at hgi
      subst hgi
      rw [hz.permClaims (common := pd.common) rfl hp.parts rfl hcols h3 a3 h1 a4]
      have := C33_permutation T.challenge n pd.perm _ _ _ _ _ cols hcols h2 proof.challenge
      simp only [Option.bind_eq_bind, Option.bind_some]
      rw [hp.lagrange0, hp.mqcEq, hp.parts, ← s12, this, h4]
      simp [eval_toPoly]
  -- the lookup argument
  have elook : (if c.lookups.gates.length > 0 then do
      let claims ← readLookupClaims proof.eval.1 pd.common (evalPoly pd.perm.lagrange0 proof.challenge)
        (evalPoly pd.perm.qLast proof.challenge) (evalPoly pd.perm.qBlind proof.challenge)
      let lcom ← proof.commitments.find LOOKUP_BATCH
      lookupVerify T.challenge T.absorb lcom c.lookups pd.common.mqc ev claims D.st1
    else some ((0, 0, 0, 0), D.st1)) =
      some ((D.fl.1.eval proof.challenge, D.fl.2.1.eval proof.challenge, D.fl.2.2.1.eval proof.challenge,
        D.fl.2.2.2.eval proof.challenge), D.st2) := by
    rcases h.lookupCase with ⟨h1, -, -, h2, -, h3⟩ | ⟨h1, commit, res, com, h2, h3, h4, -, h5, h6, h7⟩
    · rw [if_neg (by simp [h1]), h2, h3]; simp
    · rw [if_pos (List.length_pos_iff.2 h1), c2, h4,
        hz.lookupClaims (common := pd.common) (mqc := mqc) hp.parts hperml rfl hp.lookupParts h6
          (hlookl _ _ h6) h1 s11]
      have := C33_lookup (hS.lookupSetup hp h1).inTable h2 proof.challenge ev (htl h1)
      rw [h3, lookupVerify_option] at this
      simp only [Option.bind_eq_bind, Option.bind_some]
      rw [h5, h7, hp.mqcEq, ← s12]
      exact this
  have epc : (if c.copies.length > 0 ∨ c.lookups.gates.length > 0 then do
      let pcom ← proof.commitments.find PERMUTATION_BATCH
      some (T.absorb pcom D.st2)
    else some D.st2) = some (D.pcom.elim D.st2 (T.absorb · D.st2)) := by
    rcases h.permCommit with ⟨h1, h2, h3⟩ | ⟨h1, com, h2, -⟩
    · rw [if_neg (by simp [h1, h2]), h3]; rfl
    · rw [if_pos (h1.imp List.length_pos_iff.2 List.length_pos_iff.2), c3, h2]; rfl
  have egate : gateVerify T.challenge c.gates ev
      (1 - evalPoly pd.perm.qLast proof.challenge - evalPoly pd.perm.qBlind proof.challenge)
      (D.pcom.elim D.st2 (T.absorb · D.st2)) = some (D.fg.eval proof.challenge, D.st4) := by
    have h1 := h.gate
    rw [hp.degree] at h1
    have := C33_gates hS.gateSetup T.challenge _ _ _ _ h1 proof.challenge ev hte
    rw [← this]
    congr 1
    simp [gateMask, eval_toPoly]
  unfold placeholderVerify
  refine bind_step c1 ?_
  refine bind_step hz.qLast.1 ?_
  refine bind_step hz.qBlind.1 ?_
  refine bind_step hm1 ?_
  rw [hm2, hp.lagrange0]
  rw [hp.lagrange0] at eperm
  refine ite_step eperm ?_
  refine bind_step hev1 ?_
  refine ite_step2 elook ?_
  refine ite_step epc ?_
  refine bind_step egate ?_
  refine bind_step c4 ?_
  have hcha := h.challenge
  generalize T.challenge (T.absorb D.qcom (drawN T.challenge 8 D.st4).2) = yy at hcha hver ⊢
  obtain ⟨y1, y2⟩ := yy
  obtain rfl : proof.challenge = y1 := hcha
  refine (if_neg (by simp)).trans ?_
  refine bind_step hz.sizes ?_
  refine bind_step hvpts ?_
  refine bind_step hv ?_
  refine bind_step hver ?_
  refine (if_pos rfl).trans ?_
  refine bind_step hq1 ?_
  refine bind_step hq2 ?_
  show some (decide _) = some (decide _)
  rw [hp.desc, hS.rows, hp.Z, ← verifier_consolidate]
  rfl

/-- The constraint polynomials of an honest prover vanish on the rows. -/
theorem HonestRun.vanish (hS : PlaceholderSetup L A n fuel d c order t)
    (hp : PreFacts C T L n fuel d c order delta mqc hash t obj pd o0)
    (h : HonestRun C T L n d c order pd t o0 proof D)
    (hsort : c.lookups.gates ≠ [] → Sortable (compressedInputs t c.lookups n (T.challenge D.st1).1)
      (compressedValues t c.lookups n d.usableRows (T.challenge D.st1).1) (2 ^ n) d.usableRows)
    (hcopies : CopiesHold d c.copies t.cellAt) (hgates : GatesHold t c.gates d.usableRows) :
    ∀ f ∈ [D.fp.1, D.fp.2.1, D.fp.2.2, D.fl.1, D.fl.2.1, D.fl.2.2.1, D.fl.2.2.2, D.fg],
      PolyVanishesOnRows L n f := by
  obtain ⟨-, -, -, -, q1, q2, q3, -, -, -, s11, s12, -⟩ := permPreprocess_shape hS.lib hS.small hp.perm
  have hzero : PolyVanishesOnRows L n (0 : F[X]) := fun _ _ => eval_zero
  have h1 : PolyVanishesOnRows L n D.fp.1 ∧ PolyVanishesOnRows L n D.fp.2.1 ∧
      PolyVanishesOnRows L n D.fp.2.2 := by
    rcases h.permCase with ⟨-, -, h3, -⟩ | ⟨h1, gi, res, hgi, h2, -, h4⟩
    · rw [h3]; exact ⟨hzero, hzero, hzero⟩
    · rw [hp.indices, Option.some_inj] at hgi
      subst hgi
      obtain ⟨-, -, a1, a2, a3⟩ := C31_completeness (hS.permSetup hp) T.challenge _ _ _ _
        ((copiesHold_columns hS.lib hS.small hS.fits (hS.rows ▸ hS.usable) hS.copies).2 hcopies) h2
      rw [h4]
      exact ⟨fun j hj => by rw [eval_toPoly]; exact a1 j hj, fun j hj => by rw [eval_toPoly]; exact a2 j hj,
        fun j hj => by rw [eval_toPoly]; exact a3 j hj⟩
  have h2 : PolyVanishesOnRows L n D.fl.1 ∧ PolyVanishesOnRows L n D.fl.2.1 ∧
      PolyVanishesOnRows L n D.fl.2.2.1 ∧ PolyVanishesOnRows L n D.fl.2.2.2 := by
    rcases h.lookupCase with ⟨-, -, -, h3, -⟩ | ⟨h1, commit, res, com, h2, -, -, -, -, -, h7⟩
    · rw [h3]; exact ⟨hzero, hzero, hzero, hzero⟩
    · rw [h7]
      exact C35_complete (hS.lookupSetup hp h1) _ _ _ _ _ _
        (by simp only [lookupData, s11]; exact hsort h1) h2
  have h3 : PolyVanishesOnRows L n D.fg := by
    obtain ⟨p, hp1, hp2⟩ := C34_complete hS.gateSetup hgates T.challenge (D.pcom.elim D.st2 (T.absorb · D.st2))
    have hg := h.gate
    rw [hp.degree, q1, q2] at hg
    have e : gateMask (toPoly (L.coefficients (lagrangeValues (2 ^ n) d.usableRows)))
      (toPoly (L.coefficients (blindValues (2 ^ n) d.usableRows))) = rowMask L n d.usableRows := rfl
    rw [e, hp1] at hg
    simp only [Option.some.injEq, Prod.mk.injEq] at hg
    rw [← hg.1]
    exact hp2
  intro f hf
  simp only [List.mem_cons, List.not_mem_nil, or_false] at hf
  rcases hf with rfl | rfl | rfl | rfl | rfl | rfl | rfl | rfl
  exacts [h1.1, h1.2.1, h1.2.2, h2.1, h2.2.1, h2.2.2.1, h2.2.2.2, h3]

end Crypto3Zk
