import Verif.Spec.PlaceholderKzgSound
import Verif.Lemmas.PlaceholderSoundRun
import Verif.Lemmas.PlaceholderKzg

/-!
# Lemmas for C102: what the verifier of placeholder asks the commitment scheme
-/

set_option linter.unusedSectionVars false

namespace Crypto3Zk

open Polynomial

section accepted

variable {F : Type} [Field F] [DecidableEq F]
variable {L : FftLib F} {A n fuel : Nat} {d : TableDesc} {c : Circuit F} {order : List PlonkVar}
  {t : PlonkTable F} {delta : F} {mqc : Nat}
variable {S H Com Pr Data Obj : Type} {C : CommScheme F S Com Pr Data Obj} {T : PlonkTranscript S F H Com}
  {hash : H} {obj o0 : Obj} {pd : PublicData F H Com Data} {proof : PlaceholderProof F Com Pr}

theorem permVerify_state {ch : S → F × S} {l0 : List F} {mqc : Nat} {cl : PermClaims F} {y : F} {st st' : S}
    {r : F × F × F} (h : permVerify ch l0 mqc 1 cl y st = some (r, st')) : st' = (ch (ch st).2).2 := by
  unfold permVerify at h
  simp only [Nat.sub_self, drawN] at h
  split_ifs at h
  all_goals
    simp only [Option.bind_eq_bind, Option.bind_eq_some_iff, Option.some.injEq, Prod.mk.injEq] at h
    first
      | exact absurd rfl ‹¬ (1 = 1)›
      | (obtain ⟨_, _, -, h⟩ := h; exact h.symm)

theorem lookupVerify_state {ch : S → F × S} {absorb : Com → S → S} {com : Com} {sys : LookupSystem F} {mqc : Nat}
    {ev : Nat → Int → ColumnType → Option F} {cl : LookupClaims F} {st st' : S} {r : F × F × F × F}
    (hone : (sys.parts mqc).length = 1)
    (h : lookupVerify ch absorb com sys mqc ev cl st = some (r, st')) :
    st' = (drawN ch (cl.sorted.length - 1) (ch (ch (absorb com (ch st).2)).2).2).2 := by
  unfold lookupVerify at h
  obtain ⟨_, -, h⟩ := Option.bind_eq_some_iff.1 h
  obtain ⟨_, -, h⟩ := Option.bind_eq_some_iff.1 h
  simp only [hone, Nat.sub_self, drawN] at h
  split_ifs at h
  obtain ⟨_, -, h⟩ := Option.bind_eq_some_iff.1 h
  obtain ⟨_, -, h⟩ := Option.bind_eq_some_iff.1 h
  split_ifs at h
  obtain ⟨_, -, h⟩ := Option.bind_eq_some_iff.1 h
  obtain ⟨_, -, h⟩ := Option.bind_eq_some_iff.1 h
  simp only [Option.some.injEq, Prod.mk.injEq] at h
  exact h.2.symm

theorem readLookupClaims_sorted {z : EvalStorage F} {common : CommonData F H Com Data} {l0 ql qb : F}
    {cl : LookupClaims F} (h : readLookupClaims z common l0 ql qb = some cl) {k : Nat}
    (hk : z.batchSize LOOKUP_BATCH = some k) : cl.sorted.length = k := by
  unfold readLookupClaims at h
  obtain ⟨_, -, h⟩ := Option.bind_eq_some_iff.1 h
  obtain ⟨_, -, h⟩ := Option.bind_eq_some_iff.1 h
  obtain ⟨_, -, h⟩ := Option.bind_eq_some_iff.1 h
  obtain ⟨b, hb, h⟩ := Option.bind_eq_some_iff.1 h
  obtain ⟨s, hs, h⟩ := Option.bind_eq_some_iff.1 h
  obtain ⟨_, -, h⟩ := Option.bind_eq_some_iff.1 h
  obtain ⟨_, -, h⟩ := Option.bind_eq_some_iff.1 h
  rw [Option.some.injEq] at h
  subst h
  rw [EvalStorage.batchSize, hb] at hk
  simp only [Option.map_some, Option.some.injEq] at hk
  rw [← hk]
  exact length_mapM _ _ _ hs

/-- What an accepting verifier has asked the commitment scheme. -/
theorem accepted_opening {m : ProverMessages F}
    (hparts : c.copies ≠ [] → pd.common.permutationParts = 1)
    (hlone : c.lookups.gates ≠ [] → (c.lookups.parts pd.common.mqc).length = 1)
    (hsz : c.lookups.gates ≠ [] → proof.eval.1.batchSize LOOKUP_BATCH = some m.sorted.length)
    (hacc : placeholderVerify C T L n true d c pd.common proof o0 = some true)
    {vcom lcom pcom qcom : Com} (hv : proof.commitments.find VARIABLE_BATCH = some vcom)
    (hlc : c.lookups.gates ≠ [] → proof.commitments.find LOOKUP_BATCH = some lcom)
    (hpc : c.copies ≠ [] ∨ c.lookups.gates ≠ [] → proof.commitments.find PERMUTATION_BATCH = some pcom)
    (hqc : proof.commitments.find QUOTIENT_BATCH = some qcom) {st0 : S} {o1 : Obj}
    (hset : C.setup o0 (T.key pd.common.hash pd.common.fixedCommitment) pd.common.schemeData = (st0, o1)) :
    (readChallenges T c m.sorted.length vcom lcom pcom qcom st0).y = proof.challenge ∧
      ∃ sizes points v st', sizeOps proof.eval.1 c = some sizes ∧
        verifierPoints L n d c pd.common proof.challenge = some points ∧
        C.run o1 (sizes ++ points) = some v ∧
        C.verifyEval v proof.eval (proof.commitments.insert FIXED_BATCH pd.common.fixedCommitment)
          (openingState T c m.sorted.length vcom lcom pcom qcom st0) = some (true, st') := by
  unfold placeholderVerify at hacc
  rw [hset] at hacc
  obtain ⟨v', hv', hacc⟩ := Option.bind_eq_some_iff.1 hacc
  obtain rfl : vcom = v' := Option.some_inj.1 (hv.symm.trans hv')
  obtain ⟨ql, hql, hacc⟩ := Option.bind_eq_some_iff.1 hacc
  obtain ⟨qb, hqb, hacc⟩ := Option.bind_eq_some_iff.1 hacc
  obtain ⟨k, hk, hacc⟩ := Option.bind_eq_some_iff.1 hacc
  obtain ⟨⟨fp, st1⟩, hfp, hacc⟩ := ite_back hacc
  obtain ⟨ev, hev, hacc⟩ := Option.bind_eq_some_iff.1 hacc
  obtain ⟨⟨fl, st2⟩, hfl, hacc⟩ := ite_back2 hacc
  obtain ⟨st3, hst3, hacc⟩ := ite_back hacc
  obtain ⟨⟨fg, st4⟩, hfg, hacc⟩ := Option.bind_eq_some_iff.1 hacc
  obtain ⟨qc', hqc', hacc⟩ := Option.bind_eq_some_iff.1 hacc
  obtain rfl := Option.some_inj.1 (hqc.symm.trans hqc')
  set s0 := T.absorb vcom st0 with hs0
  have eperm : st1 = if c.copies = [] then s0 else (T.challenge (T.challenge s0).2).2 := by
    by_cases h1 : c.copies = []
    · rw [if_neg (by simp [h1]), Option.some_inj, Prod.mk.injEq] at hfp
      rw [if_pos h1, ← hfp.2]
    · rw [if_pos (List.length_pos_iff.2 h1)] at hfp
      obtain ⟨cl, -, hfp⟩ := Option.bind_eq_some_iff.1 hfp
      rw [hparts h1] at hfp
      rw [if_neg h1]
      exact permVerify_state hfp
  subst eperm
  set s1 := (if c.copies = [] then s0 else (T.challenge (T.challenge s0).2).2) with hs1
  have elook : st2 = if c.lookups.gates = [] then s1 else (drawN T.challenge (m.sorted.length - 1)
        (T.challenge (T.challenge (T.absorb lcom (T.challenge s1).2)).2).2).2 := by
    by_cases h1 : c.lookups.gates = []
    · rw [if_neg (by simp [h1]), Option.some_inj, Prod.mk.injEq] at hfl
      rw [if_pos h1, ← hfl.2]
    · rw [if_pos (List.length_pos_iff.2 h1), hlc h1] at hfl
      obtain ⟨cl, hcl, hfl⟩ := Option.bind_eq_some_iff.1 hfl
      simp only [Option.bind_eq_bind, Option.bind_some] at hfl
      rw [if_neg h1, ← readLookupClaims_sorted hcl (hsz h1)]
      exact lookupVerify_state (hlone h1) hfl
  subst elook
  set s2 := (if c.lookups.gates = [] then s1 else (drawN T.challenge (m.sorted.length - 1)
        (T.challenge (T.challenge (T.absorb lcom (T.challenge s1).2)).2).2).2) with hs2
  have epc : st3 = if c.copies = [] ∧ c.lookups.gates = [] then s2 else T.absorb pcom s2 := by
    by_cases h1 : c.copies = [] ∧ c.lookups.gates = []
    · rw [if_neg (by simp [h1.1, h1.2]), Option.some_inj] at hst3
      rw [if_pos h1, hst3]
    · have h2 : c.copies ≠ [] ∨ c.lookups.gates ≠ [] := not_and_or.1 h1
      rw [if_pos (h2.imp List.length_pos_iff.2 List.length_pos_iff.2), hpc h2] at hst3
      rw [if_neg h1]
      exact (Option.some_inj.1 hst3).symm
  subst epc
  set s3 := (if c.copies = [] ∧ c.lookups.gates = [] then s2 else T.absorb pcom s2) with hs3
  obtain rfl : st4 = (T.challenge s3).2 := by
    unfold gateVerify at hfg
    obtain ⟨_, -, hfg⟩ := Option.bind_eq_some_iff.1 hfg
    simp only [Option.some.injEq, Prod.mk.injEq] at hfg
    exact hfg.2.symm
  have ey : (readChallenges T c m.sorted.length vcom lcom pcom qcom st0).y =
      (T.challenge (T.absorb qcom (drawN T.challenge 8 (T.challenge s3).2).2)).1 := rfl
  have eo : openingState T c m.sorted.length vcom lcom pcom qcom st0 =
      (T.challenge (T.absorb qcom (drawN T.challenge 8 (T.challenge s3).2).2)).2 := rfl
  rw [ey, eo]
  generalize T.challenge (T.absorb qcom (drawN T.challenge 8 (T.challenge s3).2).2) = yy at hacc ⊢
  obtain ⟨y1, y2⟩ := yy
  by_cases hy : y1 = proof.challenge
  swap
  · exact absurd ((if_pos ⟨rfl, hy⟩).symm.trans hacc) (by simp)
  subst hy
  have hacc := (if_neg (by simp)).symm.trans hacc
  obtain ⟨sizes, h1, hacc⟩ := Option.bind_eq_some_iff.1 hacc
  obtain ⟨points, h2, hacc⟩ := Option.bind_eq_some_iff.1 hacc
  obtain ⟨v, h3, hacc⟩ := Option.bind_eq_some_iff.1 hacc
  obtain ⟨⟨ok, st'⟩, h4, hacc⟩ := Option.bind_eq_some_iff.1 hacc
  dsimp only at hacc
  cases ok with
  | false => exact absurd hacc (by simp)
  | true => exact ⟨rfl, sizes, points, v, st', h1, h2, h3, h4⟩

/-- The verifier gives the sizes of the batches in the proof. -/
theorem sizeOps_sized {Q : Nat → List (List F)} {z : EvalStorage F} (h : ValuesSized c Q z) :
    sizeOps z c = some (honestSizes c Q) := by
  have hb : ∀ k ∈ openedBatches c, z.batchSize k = some (Q k).length := h
  unfold sizeOps honestSizes
  rw [hb VARIABLE_BATCH (by simp [openedBatches]), hb QUOTIENT_BATCH (by simp [openedBatches])]
  by_cases h1 : c.lookups.gates = [] <;> by_cases h2 : c.copies = []
  · simp [h1, h2]
  · rw [hb PERMUTATION_BATCH (by simp [openedBatches, h2])]
    simp [h1, h2, List.length_pos_iff]
  · rw [hb PERMUTATION_BATCH (by simp [openedBatches, h1]), hb LOOKUP_BATCH (by simp [openedBatches, h1])]
    simp [h1, h2, List.length_pos_iff]
  · rw [hb PERMUTATION_BATCH (by simp [openedBatches, h1]), hb LOOKUP_BATCH (by simp [openedBatches, h1])]
    simp [h1, h2, List.length_pos_iff]

theorem mem_openedBatches (k : Nat) : k ∈ openedBatches c ↔ k = FIXED_BATCH ∨ k = VARIABLE_BATCH ∨
    (c.lookups.gates ≠ [] ∧ k = LOOKUP_BATCH) ∨
    ((c.copies ≠ [] ∨ c.lookups.gates ≠ []) ∧ k = PERMUTATION_BATCH) ∨ k = QUOTIENT_BATCH := by
  unfold openedBatches
  by_cases h1 : c.lookups.gates = [] <;> by_cases h2 : c.copies = [] <;> simp [h1, h2] <;> tauto

/-- The polynomials of a prover, as those of a prover that follows the protocol. -/
theorem committedPolys_eq (pre : PermData F) (m : ProverMessages F) (k : Nat) (hk : k ∈ openedBatches c) :
    committedPolys L c pre t m k = honestPolys L pre t (if c.copies = [] then [] else [m.V])
      (if c.lookups.gates = [] then [] else m.sorted) (if c.lookups.gates = [] then [] else [m.lookupV]) m.chunks
      k := by
  rcases (mem_openedBatches k).1 hk with rfl | rfl | ⟨h, rfl⟩ | ⟨-, rfl⟩ | rfl
  · simp [committedPolys, honestPolys, FIXED_BATCH]
  · simp [committedPolys, honestPolys, FIXED_BATCH, VARIABLE_BATCH]
  · simp [committedPolys, honestPolys, FIXED_BATCH, VARIABLE_BATCH, LOOKUP_BATCH, PERMUTATION_BATCH,
      QUOTIENT_BATCH, h]
  · simp only [committedPolys, honestPolys, FIXED_BATCH, VARIABLE_BATCH, PERMUTATION_BATCH]
    by_cases h : c.lookups.gates = [] <;> simp [h]
  · simp [committedPolys, honestPolys, FIXED_BATCH, VARIABLE_BATCH, PERMUTATION_BATCH, QUOTIENT_BATCH]

end accepted

section points

variable {F : Type} [Field F] [LinearOrder F] {L : FftLib F}

/-- The points the verifier's object holds. -/
theorem opened_points {Has : FriPoly F → List F → Prop} {maxLen : Nat} {okPoints : List F → Prop}
    {pre hp szs pts : List (LpcOp F)} {Q : Nat → List (List F)}
    (sess : SchemeSession Has maxLen okPoints pre hp szs pts Q) {ev : PolysEvaluator F}
    (hev : runContainer (lpcContainer L (pre ++ (szs ++ pts))) = some ev) :
    (∀ k, LpcOp.commit k ∈ pre ++ hp →
      ev.points.find k = some ((List.range (Q k).length).map fun i => lpcRequested k i pts)) ∧
    ∀ k, LpcOp.commit k ∉ pre ++ hp → ev.points.find k = none := by
  have inv := container_run _ ev hev
  have hcv : ∀ k, committed k (lpcContainer L (pre ++ (szs ++ pts))) ↔ LpcOp.commit k ∈ pre := by
    intro k
    rw [committed_container]
    simp [(sess.ptsNoCommit k).1, (sess.szsNoCommit k).1]
  have hsz : ∀ k m, ContainerOp.batchSize k m ∈ lpcContainer L (pre ++ (szs ++ pts)) ↔
      LpcOp.batchSize k m ∈ szs := by
    intro k m
    rw [batchSize_container]
    simp [sess.noSizes k m, (sess.ptsNoCommit k).2.1 m]
  have hreq : ∀ k i, requested k i (lpcContainer L (pre ++ (szs ++ pts))) = lpcRequested k i pts := by
    intro k i
    rw [requested_container, (sess.requested k i).2]
  refine ⟨fun k hk => ?_, fun k hk => ?_⟩
  · by_cases hp' : LpcOp.commit k ∈ pre
    · obtain ⟨h1, h2, h3⟩ := sess.once k hp'
      rw [inv.points k (fun m hm => h3 m ((hsz k m).1 hm)) ((hcv k).2 hp')]
      have : (appended k (lpcContainer L (pre ++ (szs ++ pts)))).length = (Q k).length := by
        rw [appended_container, List.length_map, lpcAppended_append, lpcAppended_append,
          (sess.appendedPts k).1, (sess.appendedPts k).2, ← (sess.polys k).length_eq, lpcAppended_append,
          lpcAppended_none k hp h2]
        simp
      rw [this]
      simp only [hreq]
    · have hk' : LpcOp.commit k ∈ hp := (List.mem_append.1 hk).resolve_left hp'
      obtain ⟨m, hm⟩ := sess.sized k hk'
      rw [inv.sized k m (fun h => hp' ((hcv k).1 h)) ((hsz k m).2 hm) (fun m' hm' => by
        rw [(sess.sizes k m' ((hsz k m').1 hm')).2, (sess.sizes k m hm).2]), (sess.sizes k m hm).2]
      simp only [hreq]
  · refine (inv.unlocked k ?_).1
    rintro (h | ⟨m, hm⟩)
    · exact hk (List.mem_append_left _ ((hcv k).1 h))
    · exact hk (List.mem_append_right _ (sess.sizes k m ((hsz k m).1 hm)).1)

theorem mergedPoints_le {ev : PolysEvaluator F} (hs : ev.points.Sorted) {U : Finset F}
    (h : ∀ k, ∀ l ∈ ev.points.getD k [], ∀ x ∈ l, x ∈ U) : (mergedPoints ev).length ≤ U.card := by
  have hnd : (mergedPoints ev).Nodup := nodup_sortedSet _
  rw [← List.toFinset_card_of_nodup hnd]
  refine Finset.card_le_card fun x hx => ?_
  rw [List.mem_toFinset, mergedPoints, mem_sortedSet, List.mem_flatMap] at hx
  obtain ⟨e, he, hx⟩ := hx
  obtain ⟨l, hl, hx⟩ := List.mem_flatten.1 hx
  refine h e.1 l ?_ x hx
  rw [OMap.getD, hs.find_mem he]
  exact hl

/-- What the scheme returned for a batch commits to its polynomials. -/
theorem blob_commitsTo {G1 : Type} [AddCommGroup G1] [Module F G1] {A : Nat} (hL : L.Lawful A)
    {codec : PointCodec G1} (hcodec : codec.Lawful) (g : G1) (alpha : F) (k : Nat) {h : List (LpcOp F)}
    {ps : List (List F)} (hps : List.Forall₂ (fun f c => f.Has L A c) (lpcAppended k h) ps) :
    CommitsTo codec g alpha (blobOf alpha g codec (appended k (lpcContainer L h))) ps := by
  intro i p hp
  obtain ⟨hi, rfl⟩ := List.getElem?_eq_some_iff.1 hp
  obtain ⟨lc, hlc⟩ := hcodec.length
  rw [blobOf, appended_container]
  have hlen : (((lpcAppended k h).map fun f => f.final L).map fun f => evalPoly f alpha • g).length = ps.length := by
    rw [List.length_map, List.length_map, hps.length_eq]
  rw [← hlen, decodeAt_spec codec lc hlc hcodec.dec _ i (by rw [hlen]; exact hi)]
  congr 1
  rw [List.getElem_map]
  congr 1
  have h5 := (lpcCoeffs_eval hL A le_rfl h (fun _ => ps) k hps i hi).1 alpha
  rw [← h5, lpcCoeffs]
  congr 1
  rw [List.getD_eq_getElem _ _ (by rw [List.length_map, hps.length_eq]; exact hi)]

end points

end Crypto3Zk
