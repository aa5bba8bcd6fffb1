import Verif.Spec.PlaceholderPartsKzg
import Verif.Lemmas.PlaceholderKzgSound

/-!
# What an accepting verifier has asked the commitment scheme, for any number of parts
-/

set_option linter.unusedSectionVars false

namespace Crypto3Zk

open Polynomial

section accepted

variable {F : Type} [Field F] [DecidableEq F]
variable {L : FftLib F} {A n fuel : Nat} {d : TableDesc} {c : Circuit F} {order : List PlonkVar}
  {t : PlonkTable F} {delta : F} {mqc : Nat}
variable {S H Com Pr Data Obj : Type} {C : CommScheme F S Com Pr Data Obj} {T : PlonkTranscript S F H Com}
  {hash : H} {obj o0 : Obj} {pd : PublicData F H Com Data} {proof : PlaceholderProof F Com Pr}

theorem permVerify_parts_state {ch : S → F × S} {l0 : List F} {mqc parts : Nat} {cl : PermClaims F} {y : F}
    {st st' : S} {r : F × F × F} (h : permVerify ch l0 mqc parts cl y st = some (r, st')) :
    st' = (drawN ch (parts - 1) (ch (ch st).2).2).2 := by
  unfold permVerify at h
  dsimp only at h
  split_ifs at h
  · obtain ⟨_, -, h⟩ := Option.bind_eq_some_iff.1 h
    simp only [Option.some.injEq, Prod.mk.injEq] at h
    exact h.2.symm
  · obtain ⟨_, -, h⟩ := Option.bind_eq_some_iff.1 h
    obtain ⟨_, -, h⟩ := Option.bind_eq_some_iff.1 h
    simp only [Option.some.injEq, Prod.mk.injEq] at h
    exact h.2.symm

theorem lookupVerify_parts_state {ch : S → F × S} {absorb : Com → S → S} {com : Com} {sys : LookupSystem F}
    {mqc : Nat}
    {ev : Nat → Int → ColumnType → Option F} {cl : LookupClaims F} {st st' : S} {r : F × F × F × F}
    (h : lookupVerify ch absorb com sys mqc ev cl st = some (r, st')) :
    st' = (drawN ch (cl.sorted.length - 1) (drawN ch ((sys.parts mqc).length - 1)
      (ch (ch (absorb com (ch st).2)).2).2).2).2 := by
  unfold lookupVerify at h
  obtain ⟨_, -, h⟩ := Option.bind_eq_some_iff.1 h
  obtain ⟨_, -, h⟩ := Option.bind_eq_some_iff.1 h
  dsimp only at h
  split_ifs at h
  · obtain ⟨_, -, h⟩ := Option.bind_eq_some_iff.1 h
    obtain ⟨_, -, h⟩ := Option.bind_eq_some_iff.1 h
    split_ifs at h
    obtain ⟨_, -, h⟩ := Option.bind_eq_some_iff.1 h
    obtain ⟨_, -, h⟩ := Option.bind_eq_some_iff.1 h
    simp only [Option.some.injEq, Prod.mk.injEq] at h
    exact h.2.symm
  · obtain ⟨_, -, h⟩ := Option.bind_eq_some_iff.1 h
    obtain ⟨_, -, h⟩ := Option.bind_eq_some_iff.1 h
    split_ifs at h
    obtain ⟨_, -, h⟩ := Option.bind_eq_some_iff.1 h
    obtain ⟨_, -, h⟩ := Option.bind_eq_some_iff.1 h
    obtain ⟨_, -, h⟩ := Option.bind_eq_some_iff.1 h
    simp only [Option.some.injEq, Prod.mk.injEq] at h
    exact h.2.symm

/-- What an accepting verifier has asked the commitment scheme. -/
theorem accepted_parts_opening {m : PartsMessages F}
    (hsz : c.lookups.gates ≠ [] → proof.eval.1.batchSize LOOKUP_BATCH = some m.sorted.length)
    (hacc : placeholderVerify C T L n true d c pd.common proof o0 = some true)
    {vcom lcom pcom qcom : Com} (hv : proof.commitments.find VARIABLE_BATCH = some vcom)
    (hlc : c.lookups.gates ≠ [] → proof.commitments.find LOOKUP_BATCH = some lcom)
    (hpc : c.copies ≠ [] ∨ c.lookups.gates ≠ [] → proof.commitments.find PERMUTATION_BATCH = some pcom)
    (hqc : proof.commitments.find QUOTIENT_BATCH = some qcom) {st0 : S} {o1 : Obj}
    (hset : C.setup o0 (T.key pd.common.hash pd.common.fixedCommitment) pd.common.schemeData = (st0, o1)) :
    (readPartsChallenges T c pd.common.permutationParts (c.lookups.parts pd.common.mqc).length m.sorted.length
      vcom lcom pcom qcom st0).y = proof.challenge ∧
      ∃ sizes points v st', sizeOps proof.eval.1 c = some sizes ∧
        verifierPoints L n d c pd.common proof.challenge = some points ∧
        C.run o1 (sizes ++ points) = some v ∧
        C.verifyEval v proof.eval (proof.commitments.insert FIXED_BATCH pd.common.fixedCommitment)
          (openingStateParts T c pd.common.permutationParts (c.lookups.parts pd.common.mqc).length m.sorted.length
      vcom lcom pcom qcom st0) = some (true, st') := by
  unfold placeholderVerify at hacc
  rw [hset] at hacc
  obtain ⟨v', hv', hacc⟩ := Option.bind_eq_some_iff.1 hacc
  obtain rfl : vcom = v' := Option.some_inj.1 (hv.symm.trans hv')
  obtain ⟨ql, hql, hacc⟩ := Option.bind_eq_some_iff.1 hacc
  obtain ⟨qb, hqb, hacc⟩ := Option.bind_eq_some_iff.1 hacc
  obtain ⟨k, hk, hacc⟩ := Option.bind_eq_some_iff.1 hacc
  obtain ⟨⟨fp, st1⟩, hfp, hacc⟩ := ite_back hacc
  obtain ⟨ev, hev, hacc⟩ := Option.bind_eq_some_iff.1 hacc
  obtain ⟨⟨fl, st2⟩, hfl, hacc⟩ := ite_back2 hacc
  obtain ⟨st3, hst3, hacc⟩ := ite_back hacc
  obtain ⟨⟨fg, st4⟩, hfg, hacc⟩ := Option.bind_eq_some_iff.1 hacc
  obtain ⟨qc', hqc', hacc⟩ := Option.bind_eq_some_iff.1 hacc
  obtain rfl := Option.some_inj.1 (hqc.symm.trans hqc')
  set s0 := T.absorb vcom st0 with hs0
  have eperm : st1 = if c.copies = [] then s0 else
    (drawN T.challenge (pd.common.permutationParts - 1) (T.challenge (T.challenge s0).2).2).2 := by
    by_cases h1 : c.copies = []
    · rw [if_neg (by simp [h1]), Option.some_inj, Prod.mk.injEq] at hfp
      rw [if_pos h1, ← hfp.2]
    · rw [if_pos (List.length_pos_iff.2 h1)] at hfp
      obtain ⟨cl, -, hfp⟩ := Option.bind_eq_some_iff.1 hfp
      rw [if_neg h1]
      exact permVerify_parts_state hfp
  subst eperm
  set s1 := (if c.copies = [] then s0 else
    (drawN T.challenge (pd.common.permutationParts - 1) (T.challenge (T.challenge s0).2).2).2) with hs1
  have elook : st2 = if c.lookups.gates = [] then s1 else (drawN T.challenge (m.sorted.length - 1)
        (drawN T.challenge ((c.lookups.parts pd.common.mqc).length - 1)
        (T.challenge (T.challenge (T.absorb lcom (T.challenge s1).2)).2).2).2).2 := by
    by_cases h1 : c.lookups.gates = []
    · rw [if_neg (by simp [h1]), Option.some_inj, Prod.mk.injEq] at hfl
      rw [if_pos h1, ← hfl.2]
    · rw [if_pos (List.length_pos_iff.2 h1), hlc h1] at hfl
      obtain ⟨cl, hcl, hfl⟩ := Option.bind_eq_some_iff.1 hfl
      simp only [Option.bind_eq_bind, Option.bind_some] at hfl
      rw [if_neg h1, ← readLookupClaims_sorted hcl (hsz h1)]
      exact lookupVerify_parts_state hfl
  subst elook
  set s2 := (if c.lookups.gates = [] then s1 else (drawN T.challenge (m.sorted.length - 1)
        (drawN T.challenge ((c.lookups.parts pd.common.mqc).length - 1)
        (T.challenge (T.challenge (T.absorb lcom (T.challenge s1).2)).2).2).2).2) with hs2
  have epc : st3 = if c.copies = [] ∧ c.lookups.gates = [] then s2 else T.absorb pcom s2 := by
    by_cases h1 : c.copies = [] ∧ c.lookups.gates = []
    · rw [if_neg (by simp [h1.1, h1.2]), Option.some_inj] at hst3
      rw [if_pos h1, hst3]
    · have h2 : c.copies ≠ [] ∨ c.lookups.gates ≠ [] := not_and_or.1 h1
      rw [if_pos (h2.imp List.length_pos_iff.2 List.length_pos_iff.2), hpc h2] at hst3
      rw [if_neg h1]
      exact (Option.some_inj.1 hst3).symm
  subst epc
  set s3 := (if c.copies = [] ∧ c.lookups.gates = [] then s2 else T.absorb pcom s2) with hs3
  obtain rfl : st4 = (T.challenge s3).2 := by
    unfold gateVerify at hfg
    obtain ⟨_, -, hfg⟩ := Option.bind_eq_some_iff.1 hfg
    simp only [Option.some.injEq, Prod.mk.injEq] at hfg
    exact hfg.2.symm
  have ey : (readPartsChallenges T c pd.common.permutationParts (c.lookups.parts pd.common.mqc).length m.sorted.length
      vcom lcom pcom qcom st0).y =
      (T.challenge (T.absorb qcom (drawN T.challenge 8 (T.challenge s3).2).2)).1 := rfl
  have eo : openingStateParts T c pd.common.permutationParts (c.lookups.parts pd.common.mqc).length m.sorted.length
      vcom lcom pcom qcom st0 =
      (T.challenge (T.absorb qcom (drawN T.challenge 8 (T.challenge s3).2).2)).2 := rfl
  rw [ey, eo]
  generalize T.challenge (T.absorb qcom (drawN T.challenge 8 (T.challenge s3).2).2) = yy at hacc ⊢
  obtain ⟨y1, y2⟩ := yy
  by_cases hy : y1 = proof.challenge
  swap
  · exact absurd ((if_pos ⟨rfl, hy⟩).symm.trans hacc) (by simp)
  subst hy
  have hacc := (if_neg (by simp)).symm.trans hacc
  obtain ⟨sizes, h1, hacc⟩ := Option.bind_eq_some_iff.1 hacc
  obtain ⟨points, h2, hacc⟩ := Option.bind_eq_some_iff.1 hacc
  obtain ⟨v, h3, hacc⟩ := Option.bind_eq_some_iff.1 hacc
  obtain ⟨⟨ok, st'⟩, h4, hacc⟩ := Option.bind_eq_some_iff.1 hacc
  dsimp only at hacc
  cases ok with
  | false => exact absurd hacc (by simp)
  | true => exact ⟨rfl, sizes, points, v, st', h1, h2, h3, h4⟩

/-- The polynomials of a prover, as those of a prover that follows the protocol. -/
theorem committedParts_eq (pre : PermData F) (m : PartsMessages F)
    (chunks : List (List F)) (k : Nat) (hk : k ∈ openedBatches c) :
    committedParts L c pre t m chunks k = honestPolys L pre t (if c.copies = [] then [] else m.V :: m.partitions)
      (if c.lookups.gates = [] then [] else m.sorted)
      (if c.lookups.gates = [] then [] else m.lookupV :: m.lookupPartitions) chunks
      k := by
  rcases (mem_openedBatches k).1 hk with rfl | rfl | ⟨h, rfl⟩ | ⟨-, rfl⟩ | rfl
  · simp [committedParts, honestPolys, FIXED_BATCH]
  · simp [committedParts, honestPolys, FIXED_BATCH, VARIABLE_BATCH]
  · simp [committedParts, honestPolys, FIXED_BATCH, VARIABLE_BATCH, LOOKUP_BATCH, PERMUTATION_BATCH,
      QUOTIENT_BATCH, h]
  · simp only [committedParts, honestPolys, FIXED_BATCH, VARIABLE_BATCH, PERMUTATION_BATCH]
    by_cases h : c.lookups.gates = [] <;> simp [h]
  · simp [committedParts, honestPolys, FIXED_BATCH, VARIABLE_BATCH, PERMUTATION_BATCH, QUOTIENT_BATCH]

end accepted

end Crypto3Zk
