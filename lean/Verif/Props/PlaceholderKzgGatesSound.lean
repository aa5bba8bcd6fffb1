import Verif.Props.PlaceholderKzgSound
import Verif.Lemmas.PartsKzg
import Verif.Props.PlaceholderGatesSound

/-!
# C102: what placeholder over KZG proves, for any number of parts
-/

set_option linter.unusedSectionVars false

namespace Crypto3Zk

open Polynomial

variable {F : Type} [Field F] [LinearOrder F] {L : FftLib F} {A n fuel : Nat} {d : TableDesc} {c : Circuit F}
  {order : List PlonkVar} {t : PlonkTable F} {delta : F} {mqc : Nat} {pre : PermData F}
variable {G1 G2 GT : Type} [AddCommGroup G1] [Module F G1] [AddCommGroup G2] [Module F G2]
  [AddCommGroup GT] [Module F GT] [DecidableEq GT]

/-- What the run of an accepting verifier over KZG has been. -/
theorem kzg_verifier_run_parts (hS : PlaceholderSetup L A n fuel d c order t)
    (hperm : permPreprocess L n fuel d c.copies order delta mqc = some pre)
    {P : Pairing F G1 G2 GT} {dk tk : Nat} {alpha : F} {Q : Nat → List (List F)} {z : EvalStorage F}
    (hz : ValuesSized c Q z) {m : PartsMessages F}
    (hzl : c.lookups.gates ≠ [] → (Q LOOKUP_BATCH).length = m.sorted.length)
    {gi : List Nat} (hgi : permutedIndices d order = some gi)
    {S H : Type} {codec : PointCodec G1} {KT : KzgTranscript S F} {T : PlonkTranscript S F H (List UInt8)}
    {hash : H} {pd : PublicData F H (List UInt8) Bool} {o0 : KzgScheme F}
    (hp : PreFacts (kzgComm L P (batchedKzgSetup P dk tk alpha) codec KT) T L n fuel d c order delta mqc hash t
      (kzgComm L P (batchedKzgSetup P dk tk alpha) codec KT).new pd o0)
    {proof : PlaceholderProof F (List UInt8) G1} {pr : G1} (heval : proof.eval = (z, pr))
    {vcom lcom pcom qcom : List UInt8} (hvc : proof.commitments.find VARIABLE_BATCH = some vcom)
    (hlc : c.lookups.gates ≠ [] → proof.commitments.find LOOKUP_BATCH = some lcom)
    (hpc : c.copies ≠ [] ∨ c.lookups.gates ≠ [] → proof.commitments.find PERMUTATION_BATCH = some pcom)
    (hqc : proof.commitments.find QUOTIENT_BATCH = some qcom)
    (hacc : placeholderVerify (kzgComm L P (batchedKzgSetup P dk tk alpha) codec KT) T L n true d c pd.common proof o0
      = some true) {y : F}
    (hy : (readPartsChallenges T c pre.parts (c.lookups.parts mqc).length m.sorted.length vcom lcom pcom qcom
      (T.key pd.common.hash pd.common.fixedCommitment)).y = y) :
    y = proof.challenge ∧ ∃ v st', verifierPoints L n d c pd.common y = some (pointOps L n d c
        ((columnsRotations d c).getD []) pre.parts d.usableRows (gi.length * 2 + 2) y) ∧
      runKzg L (batchedKzgSetup P dk tk alpha).ck codec (fixedOps L n pre t) = some o0 ∧
      (kzgComm L P (batchedKzgSetup P dk tk alpha) codec KT).run o0 (honestSizes c Q ++ pointOps L n d c
        ((columnsRotations d c).getD []) pre.parts d.usableRows (gi.length * 2 + 2) y) = some v ∧
      runKzg L (batchedKzgSetup P dk tk alpha).ck codec (fixedOps L n pre t ++ (honestSizes c Q ++ pointOps L n d c
        ((columnsRotations d c).getD []) pre.parts d.usableRows (gi.length * 2 + 2) y)) = some v ∧
      v.verifyEvalOn P (batchedKzgSetup P dk tk alpha) codec KT (z, pr)
        (proof.commitments.insert FIXED_BATCH pd.common.fixedCommitment)
        (openingStateParts T c pre.parts (c.lookups.parts mqc).length m.sorted.length vcom lcom pcom qcom
          (T.key pd.common.hash pd.common.fixedCommitment)) =
        some (true, st') := by
  obtain rfl : pre = pd.perm := Option.some_inj.1 (hperm.symm.trans hp.perm)
  obtain rfl : gi = pd.common.permutedColumns := Option.some_inj.1 (hgi.symm.trans hp.indices)
  obtain ⟨e1, sizes, points, v, st', h1, h2, h3, h4⟩ := accepted_parts_opening (m := m)
    (fun h => by rw [heval, ← hzl h]; exact hz _ ((mem_openedBatches _).2 (by simp [h]))) hacc hvc hlc hpc hqc rfl
  rw [hp.parts, hp.mqcEq] at e1 h4
  have e1 : y = proof.challenge := by rw [← e1, ← hy]
  rw [heval, sizeOps_sized hz, Option.some_inj] at h1
  have hrl := (columnsRotations_spec d c _ hp.rotations).1
  rw [← e1] at h2
  have h2' := h2
  rw [verifierPoints_eq L n d c pd.common _ hrl, hp.parts, hp.desc, Option.some_inj] at h2'
  subst h1 h2'
  rw [hp.rotations, Option.getD_some]
  have hpre := (kzg_run_new KT _).symm.trans hp.run
  rw [heval] at h4
  exact ⟨e1, v, st', h2, hpre, h3, (kzg_run_from KT _ _ _ hpre).symm.trans h3, h4⟩

/-- Opening: a proof with as many values as there are committed polynomials, which is accepted, is opened truly,
unless the challenge of the scheme or the trapdoor is one of few. -/
theorem C102_opened_parts (hS : PlaceholderSetup L A n fuel d c order t)
    (hperm : permPreprocess L n fuel d c.copies order delta mqc = some pre)
    (hn : 1 ≤ n) (hr : RotationsDistinct n d c) (hu : c.lookups.gates ≠ [] → 2 ≤ d.usableRows)
    (P : Pairing F G1 G2 GT) (hP : P.e P.one1 P.one2 ≠ 0) (dk tk : Nat) (hdk : 2 ^ n ≤ dk)
    (m : PartsMessages F) (hm : m.Sized n c mqc pre.parts) (chunks : List (List F))
    (hch : ∀ ch ∈ chunks, ch.length ≤ 2 ^ n) (z : EvalStorage F)
    (hz : ValuesSized c (committedParts L c pre t m chunks) z) (y : F) (hy : y ≠ 0) :
    ∃ badGamma : Finset F,
      badGamma.card ≤ ((openedBatches c).map fun k => (committedParts L c pre t m chunks k).length).sum - 1 ∧
      ∀ gamma ∉ badGamma, ∀ q : List F, q.length ≤ dk → ∃ badTrapdoor : Finset F,
        badTrapdoor.card ≤ dk - 1 + 2 ^ n ∧ ∀ alpha ∉ badTrapdoor,
        ∀ {S H : Type} (codec : PointCodec G1) (_ : codec.Lawful) (KT : KzgTranscript S F)
          (T : PlonkTranscript S F H (List UInt8)) (hash : H)
          (C : CommScheme F S (List UInt8) G1 Bool (KzgScheme F)),
          C = kzgComm L P (batchedKzgSetup P dk tk alpha) codec KT →
          ∀ (pd : PublicData F H (List UInt8) Bool) (o0 : KzgScheme F) (t0 : PlonkTable F),
          placeholderPreprocess C T L n fuel d c order delta mqc hash t0 C.new = some (pd, o0) →
          t0.constants = t.constants → t0.selectors = t.selectors →
          ∀ (proof : PlaceholderProof F (List UInt8) G1), proof.eval = (z, evalPoly q alpha • P.one1) →
            (proof.commitments.insert FIXED_BATCH pd.common.fixedCommitment).keys = openedBatches c →
            (∀ k ∈ openedBatches c, k ≠ FIXED_BATCH → ∀ blob, proof.commitments.find k = some blob →
              CommitsTo codec P.one1 alpha blob (committedParts L c pre t m chunks k)) →
            ∀ (vcom lcom pcom qcom : List UInt8), proof.commitments.find VARIABLE_BATCH = some vcom →
            (c.lookups.gates ≠ [] → proof.commitments.find LOOKUP_BATCH = some lcom) →
            (c.copies ≠ [] ∨ c.lookups.gates ≠ [] → proof.commitments.find PERMUTATION_BATCH = some pcom) →
            proof.commitments.find QUOTIENT_BATCH = some qcom →
            (readPartsChallenges T c pre.parts (c.lookups.parts mqc).length m.sorted.length vcom lcom pcom qcom
              (T.key pd.common.hash pd.common.fixedCommitment)).y = y →
            KzgDraws C KT L n d c pd.common o0 z y
              (proof.commitments.insert FIXED_BATCH pd.common.fixedCommitment)
              (openingStateParts T c pre.parts (c.lookups.parts mqc).length m.sorted.length vcom lcom pcom qcom
                (T.key pd.common.hash pd.common.fixedCommitment)) gamma →
            placeholderVerify C T L n true d c pd.common proof o0 = some true →
            OpenedParts L n d c pd.common pre t m chunks proof := by
  have hL := hS.lib
  have hnA := hS.small
  have hdk0 : 0 < dk := lt_of_lt_of_le (by positivity) hdk
  obtain ⟨gi, hgi⟩ := hS.indices
  obtain ⟨s1, s2, s3, s4, q1, q2, q3, s8, s9, s10, s11, s12, s13⟩ := permPreprocess_shape hL hnA hperm
  set Q := honestPolys L pre t (if c.copies = [] then [] else m.V :: m.partitions)
    (if c.lookups.gates = [] then [] else m.sorted)
    (if c.lookups.gates = [] then [] else m.lookupV :: m.lookupPartitions) chunks
    with hQ
  have hcQ : ∀ k ∈ openedBatches c, committedParts L c pre t m chunks k = Q k :=
    fun k hk => committedParts_eq pre m chunks k hk
  have hzQ : ValuesSized c Q z := fun k hk => by rw [hz k hk, hcQ k hk]
  have hsz := sizeOps_sized hzQ
  set f : Nat → Nat → List F := fun k i => (Q k).getD i [] with hf
  set rots := (columnsRotations d c).getD [] with hrots
  set pts := pointOps L n d c rots pre.parts d.usableRows (gi.length * 2 + 2) y with hpts
  set hv := lpcContainer L (fixedOps L n pre t ++ (honestSizes c Q ++ pts)) with hhv
  have hlen : HonestLengths n c pre t (if c.copies = [] then [] else m.V :: m.partitions)
      (if c.lookups.gates = [] then [] else m.sorted)
      (if c.lookups.gates = [] then [] else m.lookupV :: m.lookupPartitions) chunks := by
    refine ⟨s3, s4, s8, s9, hS.fits.rect, ?_, ?_, ?_, hch, fun h => if_pos h, fun h => ⟨if_pos h, if_pos h⟩⟩
    · intro p hp
      split_ifs at hp
      · simp at hp
      · rcases List.mem_cons.1 hp with rfl | hp
        · exact hm.V
        · exact hm.partitions p hp
    · intro p hp
      split_ifs at hp
      · simp at hp
      · exact hm.sorted p hp
    · intro p hp
      split_ifs at hp
      · simp at hp
      · rcases List.mem_cons.1 hp with rfl | hp
        · exact hm.lookupV
        · exact hm.lookupPartitions p hp
  have hzl : c.lookups.gates ≠ [] → (Q LOOKUP_BATCH).length = m.sorted.length := by
    intro h
    simp [hQ, honestPolys, FIXED_BATCH, VARIABLE_BATCH, LOOKUP_BATCH, PERMUTATION_BATCH, QUOTIENT_BATCH, h]
  by_cases hgood : (∀ k i, KzgPoints dk (challengeCoset L n y) (lpcRequested k i pts)) ∧
      (runContainer hv).isSome
  swap
  · refine ⟨∅, by simp, fun gamma _ q _ => ⟨∅, by simp, fun alpha _ S H codec
      hcodec KT T hash C hC pd o0 t0 hpre htc hts proof heval hkeys hcom vcom lcom pcom qcom hvc hlc hpc hqc hyy hdraw hacc => absurd ?_ hgood⟩⟩
    subst hC
    have hp := (preprocess_facts hpre).of_table htc hts
    obtain ⟨-, v, st', h2, -, -, h3, -⟩ := kzg_verifier_run_parts hS hperm hzQ hzl hgi hp heval hvc hlc hpc hqc
      hacc hyy
    refine ⟨fun k i => ?_, by rw [(kzg_inv h3).run]; rfl⟩
    have hnd := requested_nodup hS hp hn hr hu hy h2 k i
    have hsub : ∀ x ∈ lpcRequested k i pts, x ∈ challengeCoset L n y := by
      intro x hx
      obtain ⟨r, rfl⟩ := requested_rotation (columnsRotations_spec d c _ hp.rotations).1 h2 k i x hx
      exact mem_challengeCoset hL hnA hy r
    refine ⟨hnd, ?_, hsub⟩
    rw [← List.toFinset_card_of_nodup hnd]
    exact (Finset.card_le_card fun x hx => hsub x (List.mem_toFinset.1 hx)).trans ((challengeCoset_card y).trans hdk)
  · obtain ⟨hpo, hrun⟩ := hgood
    obtain ⟨ev, hev⟩ := Option.isSome_iff_exists.1 hrun
    have sess := honest_session hL hnA (hasLaws_lpc A hnA) hdk hlen (pointOps_ops L n d c rots pre.parts d.usableRows
      (gi.length * 2 + 2) y) (okPoints := KzgPoints dk (challengeCoset L n y)) (fun k i _ => hpo k i)
    obtain ⟨hfind, hnone⟩ := opened_points sess hev
    have hcommit : ∀ k ∈ openedBatches c, LpcOp.commit k ∈ fixedOps L n pre t ++ honestOps L n c t
        (if c.copies = [] then [] else m.V :: m.partitions) (if c.lookups.gates = [] then [] else m.sorted)
        (if c.lookups.gates = [] then [] else m.lookupV :: m.lookupPartitions) chunks := by
      intro k hk
      rw [List.mem_append, commit_mem_fixedOps, commit_mem_honestOps]
      exact (mem_openedBatches k).1 hk
    have hpts_k : ∀ k ∈ openedBatches c, ev.points.getD k [] =
        (List.range (Q k).length).map fun i => lpcRequested k i pts := by
      intro k hk
      rw [OMap.getD, hfind k (hcommit k hk), Option.getD_some]
    have hall : ∀ k, ∀ l ∈ ev.points.getD k [], KzgPoints dk (challengeCoset L n y) l := by
      intro k l hl
      by_cases hc : LpcOp.commit k ∈ fixedOps L n pre t ++ honestOps L n c t
        (if c.copies = [] then [] else m.V :: m.partitions) (if c.lookups.gates = [] then [] else m.sorted)
        (if c.lookups.gates = [] then [] else m.lookupV :: m.lookupPartitions) chunks
      · rw [OMap.getD, hfind k hc, Option.getD_some] at hl
        obtain ⟨i, -, rfl⟩ := List.mem_map.1 hl
        exact hpo k i
      · rw [OMap.getD, hnone k hc] at hl
        simp at hl
    have hfl : ∀ k i, (f k i).length ≤ dk := by
      intro k i
      rw [hf]
      dsimp only
      by_cases hi : i < (Q k).length
      · rw [List.getD_eq_getElem _ _ hi]
        exact sess.degrees k _ (List.getElem_mem hi)
      · rw [List.getD_eq_default _ _ (not_lt.1 hi)]
        simp
    obtain ⟨badGamma, hbg, hsound⟩ := C101_scheme_sound P hP dk tk hv ev hev (fun k l hl => (hall k l hl).1)
      (openedBatches c) f hfl z
    refine ⟨badGamma, hbg.trans (le_of_eq ?_), fun gamma hgamma q hq => ?_⟩
    · congr 2
      unfold openedCount
      congr 1
      refine List.map_congr_left fun k hk => ?_
      rw [hpts_k k hk, hcQ k hk]
      simp
    obtain ⟨badAlpha, hba, hsound⟩ := hsound gamma hgamma q hq
    have hmp : (mergedPoints ev).length ≤ 2 ^ n :=
      (mergedPoints_le (container_run _ ev hev).psorted fun k l hl x hx => (hall k l hl).2.2 x hx).trans
        (challengeCoset_card y)
    refine ⟨badAlpha, hba.trans (by omega), fun alpha halpha S H codec hcodec KT T hash C hC pd o0 t0 hpre
      htc hts proof heval hkeys hcom vcom lcom pcom qcom hvc hlc hpc hqc hyy hdraw hacc => ?_⟩
    subst hC
    have hp := (preprocess_facts hpre).of_table htc hts
    obtain ⟨hych, v, st', h2, h0, h3r, h3, h4⟩ := kzg_verifier_run_parts hS hperm hzQ hzl hgi hp heval hvc hlc
      hpc hqc hacc hyy
    have hvev : v.ev = ev := Option.some_inj.1 ((kzg_inv h3).run.symm.trans hev)
    unfold KzgScheme.verifyEvalOn at h4
    obtain ⟨ms, hms, h4⟩ := Option.bind_eq_some_iff.1 h4
    obtain ⟨b, hb, h4⟩ := Option.bind_eq_some_iff.1 h4
    simp only [Option.some.injEq, Prod.mk.injEq] at h4
    obtain ⟨rfl, -⟩ := h4
    obtain ⟨vev, vcms, vmerged⟩ := v
    obtain rfl : vev = ev := hvev
    have hsorted : (proof.commitments.insert FIXED_BATCH pd.common.fixedCommitment).Sorted := by
      unfold OMap.Sorted
      rw [hkeys]
      unfold openedBatches FIXED_BATCH VARIABLE_BATCH PERMUTATION_BATCH QUOTIENT_BATCH LOOKUP_BATCH
      split_ifs <;> simp
    have hrep : Represents codec P.one1 vev.points
        (proof.commitments.insert FIXED_BATCH pd.common.fixedCommitment) f alpha := by
      rintro ⟨k, blob⟩ he i hi
      dsimp only at hi ⊢
      have hk : k ∈ openedBatches c := by
        rw [← hkeys]
        exact List.mem_map.2 ⟨_, he, rfl⟩
      have hl : (vev.points.getD k []).length = (Q k).length := by rw [hpts_k k hk]; simp
      rw [hl] at hi ⊢
      have hb := hsorted.find_mem he
      rw [OMap.find_insert] at hb
      have hfi : f k i = (Q k)[i] := List.getD_eq_getElem _ _ hi
      rw [hfi]
      by_cases hkf : k = FIXED_BATCH
      · rw [if_pos hkf, Option.some_inj] at hb
        have hroot : o0.commitments.find FIXED_BATCH = some pd.common.fixedCommitment := hp.root
        have hcf : LpcOp.commit FIXED_BATCH ∈ fixedOps L n pre t := (commit_mem_fixedOps _ _ _).2 rfl
        rw [(kzg_inv h0).found FIXED_BATCH ((committed_container L _ _).2 hcf), Option.some_inj, hb] at hroot
        have hpoly := sess.polys FIXED_BATCH
        rw [lpcAppended_append, lpcAppended_none _ _ (sess.once _ hcf).2.1, List.append_nil] at hpoly
        subst hkf
        rw [← hroot]
        exact blob_commitsTo hL hcodec P.one1 alpha FIXED_BATCH hpoly i _ (List.getElem?_eq_getElem hi)
      · rw [if_neg hkf] at hb
        have := hcom k hk hkf blob hb i
        rw [hcQ k hk] at this
        exact this _ (List.getElem?_eq_getElem hi)
    have htrue := hsound alpha halpha codec _ _ vcms vmerged hkeys hrep (fun ms' hms' =>
      hdraw _ _ _ ms' (sizeOps_sized hzQ) h2 h3r hms') hb
    intro pts' hpts' k hk
    rw [← hych, h2, Option.some_inj] at hpts'
    subst hpts'
    have hk' := (mem_openedBatches k).2 hk
    rw [hcQ k hk', heval]
    have hsize := hzQ k hk'
    rw [EvalStorage.batchSize, Option.map_eq_some_iff] at hsize
    obtain ⟨zs, hzs, hzl'⟩ := hsize
    show z.find k = _
    rw [hzs, Option.some_inj]
    refine List.ext_getElem (by simp [hzl']) fun i hi1 hi2 => ?_
    have hi : i < (Q k).length := by omega
    have := htrue k hk' i (lpcRequested k i pts) (by
      rw [hpts_k k hk', List.getElem?_map, List.getElem?_range hi]; rfl)
    rw [EvalStorage.getPoly, hzs] at this
    have h6 : zs[i]? = some ((lpcRequested k i pts).map (evalPoly (f k i))) := this
    rw [List.getElem?_eq_getElem hi1, Option.some_inj] at h6
    rw [h6, List.getElem_mapIdx, show f k i = (Q k)[i] from List.getD_eq_getElem _ _ hi]

/-- **C102** by parts: as `C102_kzg_sound_partial`, whatever the numbers of parts of the permutation and lookup
arguments (no part of the latter empty). If the verifier accepts, the table satisfies the gates; it satisfies the copy constraints
if the permutation argument has one part, and the lookups if the lookup argument has one part. Missing: the sizes have
to be assumed, and several parts prove nothing about copies and lookups (`C102_kzg_parts_forgery`,
`C102_kzg_lookup_parts_forgery`). -/
theorem C102_kzg_sound_by_parts_partial (hS : PlaceholderSetup L A n fuel d c order t)
    (hperm : permPreprocess L n fuel d c.copies order delta mqc = some pre) (hdeg : DegreesFit c)
    {dg : Nat} (hdg : ∀ g ∈ c.gates, ∀ e ∈ g.constraints, e.degree ≤ dg)
    (hne : c.lookups.gates ≠ [] → ∀ p ∈ c.lookups.parts mqc, p ≠ 0) (w : Nat)
    (hn : 1 ≤ n) (hr : RotationsDistinct n d c) (hu : c.lookups.gates ≠ [] → 2 ≤ d.usableRows)
    (P : Pairing F G1 G2 GT) (hP : P.e P.one1 P.one2 ≠ 0) (dk tk : Nat) (hdk : 2 ^ n ≤ dk) :
    ∃ B : PartsBad F, B.Small c n d.usableRows order.length dg w ∧
      ∀ m : PartsMessages F, m.Sized n c mqc pre.parts →
      ∀ chunks : List (List F), (∀ ch ∈ chunks, ch.length ≤ 2 ^ n) → ∀ z : EvalStorage F,
      ValuesSized c (committedParts L c pre t m chunks) z →
      ∀ y : F, y ≠ 0 → ∃ badGamma : Finset F,
        badGamma.card ≤ ((openedBatches c).map fun k => (committedParts L c pre t m chunks k).length).sum - 1 ∧
        ∀ gamma ∉ badGamma, ∀ q : List F, q.length ≤ dk → ∃ badTrapdoor : Finset F,
          badTrapdoor.card ≤ dk - 1 + 2 ^ n ∧ ∀ alpha ∉ badTrapdoor,
          ∀ {S H : Type} (codec : PointCodec G1) (_ : codec.Lawful) (KT : KzgTranscript S F)
            (T : PlonkTranscript S F H (List UInt8)) (hash : H)
            (C : CommScheme F S (List UInt8) G1 Bool (KzgScheme F)),
            C = kzgComm L P (batchedKzgSetup P dk tk alpha) codec KT →
            ∀ (pd : PublicData F H (List UInt8) Bool) (o0 : KzgScheme F) (t0 : PlonkTable F),
            placeholderPreprocess C T L n fuel d c order delta mqc hash t0 C.new = some (pd, o0) →
            t0.constants = t.constants → t0.selectors = t.selectors →
            ∀ (proof : PlaceholderProof F (List UInt8) G1), proof.eval = (z, evalPoly q alpha • P.one1) →
              (proof.commitments.insert FIXED_BATCH pd.common.fixedCommitment).keys = openedBatches c →
              (∀ k ∈ openedBatches c, k ≠ FIXED_BATCH → ∀ blob, proof.commitments.find k = some blob →
                CommitsTo codec P.one1 alpha blob (committedParts L c pre t m chunks k)) →
              ∀ (vcom lcom pcom qcom : List UInt8), proof.commitments.find VARIABLE_BATCH = some vcom →
              (c.lookups.gates ≠ [] → proof.commitments.find LOOKUP_BATCH = some lcom) →
              (c.copies ≠ [] ∨ c.lookups.gates ≠ [] → proof.commitments.find PERMUTATION_BATCH = some pcom) →
              proof.commitments.find QUOTIENT_BATCH = some qcom →
              ∀ x : PartsChallenges F, x = readPartsChallenges T c pre.parts (c.lookups.parts mqc).length
                m.sorted.length vcom lcom pcom qcom (T.key pd.common.hash pd.common.fixedCommitment) →
              B.GatesAvoided m chunks x → x.y = y →
              KzgDraws C KT L n d c pd.common o0 z y
                (proof.commitments.insert FIXED_BATCH pd.common.fixedCommitment)
                (openingStateParts T c pre.parts (c.lookups.parts mqc).length m.sorted.length vcom lcom pcom qcom
                  (T.key pd.common.hash pd.common.fixedCommitment)) gamma →
              placeholderVerify C T L n true d c pd.common proof o0 = some true →
              GatesHold t c.gates d.usableRows ∧
              (c.copies ≠ [] → pre.parts = 1 → DeltaSeparates n order.length delta → B.CopiesAvoided x.early →
                CopiesHold d c.copies t.cellAt) ∧
              (c.lookups.gates ≠ [] → (c.lookups.parts mqc).length = 1 →
                LookupsCheckable t c.lookups d.usableRows w → B.LookupsAvoided m.sorted x.early →
                LookupsHold t c.lookups d.usableRows) := by
  obtain ⟨B, hB, hsound⟩ := C66_sound_by_parts_partial hS hperm hdeg hdg hne w
  refine ⟨B, hB, fun m hm chunks hch z hz y hy => ?_⟩
  obtain ⟨badGamma, hbg, h⟩ := C102_opened_parts hS hperm hn hr hu P hP dk tk hdk m hm chunks hch z hz y hy
  refine ⟨badGamma, hbg, fun gamma hgamma q hq => ?_⟩
  obtain ⟨badTrapdoor, hbt, h⟩ := h gamma hgamma q hq
  refine ⟨badTrapdoor, hbt, fun alpha halpha S H codec hcodec KT T hash C hC pd o0 t0 hpre htc hts proof heval hkeys
    hcom vcom lcom pcom qcom hvc hlc hpc hqc x hx hav hyy hdraw hacc => ?_⟩
  have ho := h alpha halpha codec hcodec KT T hash C hC pd o0 t0 hpre htc hts proof heval hkeys hcom vcom lcom pcom
    qcom hvc hlc hpc hqc (hx ▸ hyy) hdraw hacc
  refine hsound C T hash C.new o0 pd t0 hpre htc hts proof m chunks hm hch ho vcom lcom pcom qcom hvc hlc hpc hqc x ?_
    hav hacc
  subst hC
  exact hx

end Crypto3Zk
