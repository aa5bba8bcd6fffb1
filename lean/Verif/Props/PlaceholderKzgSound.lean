import Verif.Lemmas.PlaceholderKzgSound
import Verif.Props.PlaceholderSound
import Verif.Props.KZGSound

/-!
# C102: what placeholder over KZG proves

The proof has as many values as there are committed polynomials; otherwise the claim is false
(`C102_kzg_forgery`). The prover combines elements of the key, as in C101.
-/

set_option linter.unusedSectionVars false

namespace Crypto3Zk

open Polynomial

variable {F : Type} [Field F] [LinearOrder F] {L : FftLib F} {A n fuel : Nat} {d : TableDesc} {c : Circuit F}
  {order : List PlonkVar} {t : PlonkTable F} {delta : F} {mqc : Nat} {pre : PermData F}
variable {G1 G2 GT : Type} [AddCommGroup G1] [Module F G1] [AddCommGroup G2] [Module F G2]
  [AddCommGroup GT] [Module F GT] [DecidableEq GT]

/-- What the run of an accepting verifier over KZG has been. -/
theorem kzg_verifier_run (hS : PlaceholderSetup L A n fuel d c order t)
    (hperm : permPreprocess L n fuel d c.copies order delta mqc = some pre)
    (hone : c.copies ≠ [] → pre.parts = 1)
    (hlone : c.lookups.gates ≠ [] → (c.lookups.parts mqc).length = 1)
    {P : Pairing F G1 G2 GT} {dk tk : Nat} {alpha : F} {Q : Nat → List (List F)} {z : EvalStorage F}
    (hz : ValuesSized c Q z) {m : ProverMessages F} (hzl : c.lookups.gates ≠ [] → (Q LOOKUP_BATCH).length = m.sorted.length)
    {gi : List Nat} (hgi : permutedIndices d order = some gi)
    {S H : Type} {codec : PointCodec G1} {KT : KzgTranscript S F} {T : PlonkTranscript S F H (List UInt8)}
    {hash : H} {pd : PublicData F H (List UInt8) Bool} {o0 : KzgScheme F}
    (hp : PreFacts (kzgComm L P (batchedKzgSetup P dk tk alpha) codec KT) T L n fuel d c order delta mqc hash t
      (kzgComm L P (batchedKzgSetup P dk tk alpha) codec KT).new pd o0)
    {proof : PlaceholderProof F (List UInt8) G1} {pr : G1} (heval : proof.eval = (z, pr))
    {vcom lcom pcom qcom : List UInt8} (hvc : proof.commitments.find VARIABLE_BATCH = some vcom)
    (hlc : c.lookups.gates ≠ [] → proof.commitments.find LOOKUP_BATCH = some lcom)
    (hpc : c.copies ≠ [] ∨ c.lookups.gates ≠ [] → proof.commitments.find PERMUTATION_BATCH = some pcom)
    (hqc : proof.commitments.find QUOTIENT_BATCH = some qcom)
    (hacc : placeholderVerify (kzgComm L P (batchedKzgSetup P dk tk alpha) codec KT) T L n true d c pd.common proof o0
      = some true) {y : F}
    (hy : (readChallenges T c m.sorted.length vcom lcom pcom qcom
      (T.key pd.common.hash pd.common.fixedCommitment)).y = y) :
    y = proof.challenge ∧ ∃ v st', verifierPoints L n d c pd.common y = some (pointOps L n d c
        ((columnsRotations d c).getD []) pre.parts d.usableRows (gi.length * 2 + 2) y) ∧
      runKzg L (batchedKzgSetup P dk tk alpha).ck codec (fixedOps L n pre t) = some o0 ∧
      (kzgComm L P (batchedKzgSetup P dk tk alpha) codec KT).run o0 (honestSizes c Q ++ pointOps L n d c
        ((columnsRotations d c).getD []) pre.parts d.usableRows (gi.length * 2 + 2) y) = some v ∧
      runKzg L (batchedKzgSetup P dk tk alpha).ck codec (fixedOps L n pre t ++ (honestSizes c Q ++ pointOps L n d c
        ((columnsRotations d c).getD []) pre.parts d.usableRows (gi.length * 2 + 2) y)) = some v ∧
      v.verifyEvalOn P (batchedKzgSetup P dk tk alpha) codec KT (z, pr)
        (proof.commitments.insert FIXED_BATCH pd.common.fixedCommitment)
        (openingState T c m.sorted.length vcom lcom pcom qcom (T.key pd.common.hash pd.common.fixedCommitment)) =
        some (true, st') := by
  obtain rfl : pre = pd.perm := Option.some_inj.1 (hperm.symm.trans hp.perm)
  obtain rfl : gi = pd.common.permutedColumns := Option.some_inj.1 (hgi.symm.trans hp.indices)
  obtain ⟨e1, sizes, points, v, st', h1, h2, h3, h4⟩ := accepted_opening (m := m)
    (fun h => hp.parts.trans (hone h)) (by rw [hp.mqcEq]; exact hlone)
    (fun h => by rw [heval, ← hzl h]; exact hz _ ((mem_openedBatches _).2 (by simp [h]))) hacc hvc hlc hpc hqc rfl
  have e1 : y = proof.challenge := by rw [← e1, ← hy]
  rw [heval, sizeOps_sized hz, Option.some_inj] at h1
  have hrl := (columnsRotations_spec d c _ hp.rotations).1
  rw [← e1] at h2
  have h2' := h2
  rw [verifierPoints_eq L n d c pd.common _ hrl, hp.parts, hp.desc, Option.some_inj] at h2'
  subst h1 h2'
  rw [hp.rotations, Option.getD_some]
  have hpre := (kzg_run_new KT _).symm.trans hp.run
  rw [heval] at h4
  exact ⟨e1, v, st', h2, hpre, h3, (kzg_run_from KT _ _ _ hpre).symm.trans h3, h4⟩

/-- Opening: a proof with as many values as there are committed polynomials, which is accepted, is opened truly,
unless the challenge of the scheme or the trapdoor is one of few. -/
theorem C102_opened_truly (hS : PlaceholderSetup L A n fuel d c order t)
    (hperm : permPreprocess L n fuel d c.copies order delta mqc = some pre)
    (hone : c.copies ≠ [] → pre.parts = 1)
    (hlone : c.lookups.gates ≠ [] → (c.lookups.parts mqc).length = 1)
    (hn : 1 ≤ n) (hr : RotationsDistinct n d c) (hu : c.lookups.gates ≠ [] → 2 ≤ d.usableRows)
    (P : Pairing F G1 G2 GT) (hP : P.e P.one1 P.one2 ≠ 0) (dk tk : Nat) (hdk : 2 ^ n ≤ dk)
    (m : ProverMessages F) (hm : m.Sized n) (z : EvalStorage F)
    (hz : ValuesSized c (committedPolys L c pre t m) z) (y : F) (hy : y ≠ 0) :
    ∃ badGamma : Finset F,
      badGamma.card ≤ ((openedBatches c).map fun k => (committedPolys L c pre t m k).length).sum - 1 ∧
      ∀ gamma ∉ badGamma, ∀ q : List F, q.length ≤ dk → ∃ badTrapdoor : Finset F,
        badTrapdoor.card ≤ dk - 1 + 2 ^ n ∧ ∀ alpha ∉ badTrapdoor,
        ∀ {S H : Type} (codec : PointCodec G1) (_ : codec.Lawful) (KT : KzgTranscript S F)
          (T : PlonkTranscript S F H (List UInt8)) (hash : H)
          (C : CommScheme F S (List UInt8) G1 Bool (KzgScheme F)),
          C = kzgComm L P (batchedKzgSetup P dk tk alpha) codec KT →
          ∀ (pd : PublicData F H (List UInt8) Bool) (o0 : KzgScheme F) (t0 : PlonkTable F),
          placeholderPreprocess C T L n fuel d c order delta mqc hash t0 C.new = some (pd, o0) →
          t0.constants = t.constants → t0.selectors = t.selectors →
          ∀ (proof : PlaceholderProof F (List UInt8) G1), proof.eval = (z, evalPoly q alpha • P.one1) →
            (proof.commitments.insert FIXED_BATCH pd.common.fixedCommitment).keys = openedBatches c →
            (∀ k ∈ openedBatches c, k ≠ FIXED_BATCH → ∀ blob, proof.commitments.find k = some blob →
              CommitsTo codec P.one1 alpha blob (committedPolys L c pre t m k)) →
            ∀ (vcom lcom pcom qcom : List UInt8), proof.commitments.find VARIABLE_BATCH = some vcom →
            (c.lookups.gates ≠ [] → proof.commitments.find LOOKUP_BATCH = some lcom) →
            (c.copies ≠ [] ∨ c.lookups.gates ≠ [] → proof.commitments.find PERMUTATION_BATCH = some pcom) →
            proof.commitments.find QUOTIENT_BATCH = some qcom →
            (readChallenges T c m.sorted.length vcom lcom pcom qcom
              (T.key pd.common.hash pd.common.fixedCommitment)).y = y →
            KzgDraws C KT L n d c pd.common o0 z y
              (proof.commitments.insert FIXED_BATCH pd.common.fixedCommitment)
              (openingState T c m.sorted.length vcom lcom pcom qcom
                (T.key pd.common.hash pd.common.fixedCommitment)) gamma →
            placeholderVerify C T L n true d c pd.common proof o0 = some true →
            OpenedTruly L n d c pd.common pre t m proof := by
  have hL := hS.lib
  have hnA := hS.small
  have hdk0 : 0 < dk := lt_of_lt_of_le (by positivity) hdk
  obtain ⟨gi, hgi⟩ := hS.indices
  obtain ⟨s1, s2, s3, s4, q1, q2, q3, s8, s9, s10, s11, s12, s13⟩ := permPreprocess_shape hL hnA hperm
  set Q := honestPolys L pre t (if c.copies = [] then [] else [m.V])
    (if c.lookups.gates = [] then [] else m.sorted) (if c.lookups.gates = [] then [] else [m.lookupV]) m.chunks
    with hQ
  have hcQ : ∀ k ∈ openedBatches c, committedPolys L c pre t m k = Q k :=
    fun k hk => committedPolys_eq pre m k hk
  have hzQ : ValuesSized c Q z := fun k hk => by rw [hz k hk, hcQ k hk]
  have hsz := sizeOps_sized hzQ
  set f : Nat → Nat → List F := fun k i => (Q k).getD i [] with hf
  set rots := (columnsRotations d c).getD [] with hrots
  set pts := pointOps L n d c rots pre.parts d.usableRows (gi.length * 2 + 2) y with hpts
  set hv := lpcContainer L (fixedOps L n pre t ++ (honestSizes c Q ++ pts)) with hhv
  have hlen : HonestLengths n c pre t (if c.copies = [] then [] else [m.V])
      (if c.lookups.gates = [] then [] else m.sorted) (if c.lookups.gates = [] then [] else [m.lookupV])
      m.chunks := by
    refine ⟨s3, s4, s8, s9, hS.fits.rect, ?_, ?_, ?_, hm.chunks, fun h => if_pos h, fun h => ⟨if_pos h, if_pos h⟩⟩
    · intro p hp
      split_ifs at hp
      · simp at hp
      · rw [List.mem_singleton.1 hp]; exact hm.V
    · intro p hp
      split_ifs at hp
      · simp at hp
      · exact hm.sorted p hp
    · intro p hp
      split_ifs at hp
      · simp at hp
      · rw [List.mem_singleton.1 hp]; exact hm.lookupV
  have hzl : c.lookups.gates ≠ [] → (Q LOOKUP_BATCH).length = m.sorted.length := by
    intro h
    simp [hQ, honestPolys, FIXED_BATCH, VARIABLE_BATCH, LOOKUP_BATCH, PERMUTATION_BATCH, QUOTIENT_BATCH, h]
  by_cases hgood : (∀ k i, KzgPoints dk (challengeCoset L n y) (lpcRequested k i pts)) ∧
      (runContainer hv).isSome
  swap
  · refine ⟨∅, by simp, fun gamma _ q _ => ⟨∅, by simp, fun alpha _ S H codec hcodec KT T hash C hC pd o0 t0 hpre
      htc hts proof heval hkeys hcom vcom lcom pcom qcom hvc hlc hpc hqc hyy hdraw hacc => absurd ?_ hgood⟩⟩
    subst hC
    have hp := (preprocess_facts hpre).of_table htc hts
    obtain ⟨-, v, st', h2, -, -, h3, -⟩ := kzg_verifier_run hS hperm hone hlone hzQ hzl hgi hp heval hvc hlc hpc hqc
      hacc hyy
    refine ⟨fun k i => ?_, by rw [(kzg_inv h3).run]; rfl⟩
    have hnd := requested_nodup hS hp hn hr hu hy h2 k i
    have hsub : ∀ x ∈ lpcRequested k i pts, x ∈ challengeCoset L n y := by
      intro x hx
      obtain ⟨r, rfl⟩ := requested_rotation (columnsRotations_spec d c _ hp.rotations).1 h2 k i x hx
      exact mem_challengeCoset hL hnA hy r
    refine ⟨hnd, ?_, hsub⟩
    rw [← List.toFinset_card_of_nodup hnd]
    exact (Finset.card_le_card fun x hx => hsub x (List.mem_toFinset.1 hx)).trans ((challengeCoset_card y).trans hdk)
  · obtain ⟨hpo, hrun⟩ := hgood
    obtain ⟨ev, hev⟩ := Option.isSome_iff_exists.1 hrun
    have sess := honest_session hL hnA (hasLaws_lpc A hnA) hdk hlen (pointOps_ops L n d c rots pre.parts d.usableRows
      (gi.length * 2 + 2) y) (okPoints := KzgPoints dk (challengeCoset L n y)) (fun k i _ => hpo k i)
    obtain ⟨hfind, hnone⟩ := opened_points sess hev
    have hcommit : ∀ k ∈ openedBatches c, LpcOp.commit k ∈ fixedOps L n pre t ++ honestOps L n c t
        (if c.copies = [] then [] else [m.V]) (if c.lookups.gates = [] then [] else m.sorted)
        (if c.lookups.gates = [] then [] else [m.lookupV]) m.chunks := by
      intro k hk
      rw [List.mem_append, commit_mem_fixedOps, commit_mem_honestOps]
      exact (mem_openedBatches k).1 hk
    have hpts_k : ∀ k ∈ openedBatches c, ev.points.getD k [] =
        (List.range (Q k).length).map fun i => lpcRequested k i pts := by
      intro k hk
      rw [OMap.getD, hfind k (hcommit k hk), Option.getD_some]
    have hall : ∀ k, ∀ l ∈ ev.points.getD k [], KzgPoints dk (challengeCoset L n y) l := by
      intro k l hl
      by_cases hc : LpcOp.commit k ∈ fixedOps L n pre t ++ honestOps L n c t
        (if c.copies = [] then [] else [m.V]) (if c.lookups.gates = [] then [] else m.sorted)
        (if c.lookups.gates = [] then [] else [m.lookupV]) m.chunks
      · rw [OMap.getD, hfind k hc, Option.getD_some] at hl
        obtain ⟨i, -, rfl⟩ := List.mem_map.1 hl
        exact hpo k i
      · rw [OMap.getD, hnone k hc] at hl
        simp at hl
    have hfl : ∀ k i, (f k i).length ≤ dk := by
      intro k i
      rw [hf]
      dsimp only
      by_cases hi : i < (Q k).length
      · rw [List.getD_eq_getElem _ _ hi]
        exact sess.degrees k _ (List.getElem_mem hi)
      · rw [List.getD_eq_default _ _ (not_lt.1 hi)]
        simp
    obtain ⟨badGamma, hbg, hsound⟩ := C101_scheme_sound P hP dk tk hv ev hev (fun k l hl => (hall k l hl).1)
      (openedBatches c) f hfl z
    refine ⟨badGamma, hbg.trans (le_of_eq ?_), fun gamma hgamma q hq => ?_⟩
    · congr 2
      unfold openedCount
      congr 1
      refine List.map_congr_left fun k hk => ?_
      rw [hpts_k k hk, hcQ k hk]
      simp
    obtain ⟨badAlpha, hba, hsound⟩ := hsound gamma hgamma q hq
    have hmp : (mergedPoints ev).length ≤ 2 ^ n :=
      (mergedPoints_le (container_run _ ev hev).psorted fun k l hl x hx => (hall k l hl).2.2 x hx).trans
        (challengeCoset_card y)
    refine ⟨badAlpha, hba.trans (by omega), fun alpha halpha S H codec hcodec KT T hash C hC pd o0 t0 hpre
      htc hts proof heval hkeys hcom vcom lcom pcom qcom hvc hlc hpc hqc hyy hdraw hacc => ?_⟩
    subst hC
    have hp := (preprocess_facts hpre).of_table htc hts
    obtain ⟨hych, v, st', h2, h0, h3r, h3, h4⟩ := kzg_verifier_run hS hperm hone hlone hzQ hzl hgi hp heval hvc hlc
      hpc hqc hacc hyy
    have hvev : v.ev = ev := Option.some_inj.1 ((kzg_inv h3).run.symm.trans hev)
    unfold KzgScheme.verifyEvalOn at h4
    obtain ⟨ms, hms, h4⟩ := Option.bind_eq_some_iff.1 h4
    obtain ⟨b, hb, h4⟩ := Option.bind_eq_some_iff.1 h4
    simp only [Option.some.injEq, Prod.mk.injEq] at h4
    obtain ⟨rfl, -⟩ := h4
    obtain ⟨vev, vcms, vmerged⟩ := v
    obtain rfl : vev = ev := hvev
    have hsorted : (proof.commitments.insert FIXED_BATCH pd.common.fixedCommitment).Sorted := by
      unfold OMap.Sorted
      rw [hkeys]
      unfold openedBatches FIXED_BATCH VARIABLE_BATCH PERMUTATION_BATCH QUOTIENT_BATCH LOOKUP_BATCH
      split_ifs <;> simp
    have hrep : Represents codec P.one1 vev.points
        (proof.commitments.insert FIXED_BATCH pd.common.fixedCommitment) f alpha := by
      rintro ⟨k, blob⟩ he i hi
      dsimp only at hi ⊢
      have hk : k ∈ openedBatches c := by
        rw [← hkeys]
        exact List.mem_map.2 ⟨_, he, rfl⟩
      have hl : (vev.points.getD k []).length = (Q k).length := by rw [hpts_k k hk]; simp
      rw [hl] at hi ⊢
      have hb := hsorted.find_mem he
      rw [OMap.find_insert] at hb
      have hfi : f k i = (Q k)[i] := List.getD_eq_getElem _ _ hi
      rw [hfi]
      by_cases hkf : k = FIXED_BATCH
      · rw [if_pos hkf, Option.some_inj] at hb
        have hroot : o0.commitments.find FIXED_BATCH = some pd.common.fixedCommitment := hp.root
        have hcf : LpcOp.commit FIXED_BATCH ∈ fixedOps L n pre t := (commit_mem_fixedOps _ _ _).2 rfl
        rw [(kzg_inv h0).found FIXED_BATCH ((committed_container L _ _).2 hcf), Option.some_inj, hb] at hroot
        have hpoly := sess.polys FIXED_BATCH
        rw [lpcAppended_append, lpcAppended_none _ _ (sess.once _ hcf).2.1, List.append_nil] at hpoly
        subst hkf
        rw [← hroot]
        exact blob_commitsTo hL hcodec P.one1 alpha FIXED_BATCH hpoly i _ (List.getElem?_eq_getElem hi)
      · rw [if_neg hkf] at hb
        have := hcom k hk hkf blob hb i
        rw [hcQ k hk] at this
        exact this _ (List.getElem?_eq_getElem hi)
    have htrue := hsound alpha halpha codec _ _ vcms vmerged hkeys hrep (fun ms' hms' =>
      hdraw _ _ _ ms' (sizeOps_sized hzQ) h2 h3r hms') hb
    intro pts' hpts' k hk
    rw [← hych, h2, Option.some_inj] at hpts'
    subst hpts'
    have hk' := (mem_openedBatches k).2 hk
    rw [hcQ k hk', heval]
    have hsize := hzQ k hk'
    rw [EvalStorage.batchSize, Option.map_eq_some_iff] at hsize
    obtain ⟨zs, hzs, hzl'⟩ := hsize
    show z.find k = _
    rw [hzs, Option.some_inj]
    refine List.ext_getElem (by simp [hzl']) fun i hi1 hi2 => ?_
    have hi : i < (Q k).length := by omega
    have := htrue k hk' i (lpcRequested k i pts) (by
      rw [hpts_k k hk', List.getElem?_map, List.getElem?_range hi]; rfl)
    rw [EvalStorage.getPoly, hzs] at this
    have h6 : zs[i]? = some ((lpcRequested k i pts).map (evalPoly (f k i))) := this
    rw [List.getElem?_eq_getElem hi1, Option.some_inj] at h6
    rw [h6, List.getElem_mapIdx, show f k i = (Q k)[i] from List.getD_eq_getElem _ _ hi]

/-- **C102**, in part: placeholder over KZG is sound against provers that combine elements of the key and that send
as many values as polynomials were committed to. The circuit, its table and the messages `m` come first, then the
values `z` and the challenge `y`, then the challenge `gamma` of the scheme, then the opening with coefficients `q`,
and the trapdoor is one of all but few. If the verifier accepts, the table satisfies the circuit. Missing: the sizes
have to be assumed, since the verifier does not check them (`C102_kzg_forgery`). -/
theorem C102_kzg_sound_partial (hS : PlaceholderSetup L A n fuel d c order t)
    (hperm : permPreprocess L n fuel d c.copies order delta mqc = some pre) (hdeg : DegreesFit c)
    {dg : Nat} (hdg : ∀ g ∈ c.gates, ∀ e ∈ g.constraints, e.degree ≤ dg)
    (hone : c.copies ≠ [] → pre.parts = 1)
    (hlone : c.lookups.gates ≠ [] → (c.lookups.parts mqc).length = 1)
    (hdelta : c.copies ≠ [] → DeltaSeparates n order.length delta)
    {w : Nat} (hlk : c.lookups.gates ≠ [] → LookupsCheckable t c.lookups d.usableRows w)
    (hn : 1 ≤ n) (hr : RotationsDistinct n d c) (hu : c.lookups.gates ≠ [] → 2 ≤ d.usableRows)
    (P : Pairing F G1 G2 GT) (hP : P.e P.one1 P.one2 ≠ 0) (dk tk : Nat) (hdk : 2 ^ n ≤ dk) :
    ∃ B : BadChallenges F, B.Small c n d.usableRows order.length dg w ∧
      ∀ m : ProverMessages F, m.Sized n → ∀ z : EvalStorage F, ValuesSized c (committedPolys L c pre t m) z →
      ∀ y : F, y ≠ 0 → ∃ badGamma : Finset F,
        badGamma.card ≤ ((openedBatches c).map fun k => (committedPolys L c pre t m k).length).sum - 1 ∧
        ∀ gamma ∉ badGamma, ∀ q : List F, q.length ≤ dk → ∃ badTrapdoor : Finset F,
          badTrapdoor.card ≤ dk - 1 + 2 ^ n ∧ ∀ alpha ∉ badTrapdoor,
          ∀ {S H : Type} (codec : PointCodec G1) (_ : codec.Lawful) (KT : KzgTranscript S F)
            (T : PlonkTranscript S F H (List UInt8)) (hash : H)
            (C : CommScheme F S (List UInt8) G1 Bool (KzgScheme F)),
            C = kzgComm L P (batchedKzgSetup P dk tk alpha) codec KT →
            ∀ (pd : PublicData F H (List UInt8) Bool) (o0 : KzgScheme F) (t0 : PlonkTable F),
            placeholderPreprocess C T L n fuel d c order delta mqc hash t0 C.new = some (pd, o0) →
            t0.constants = t.constants → t0.selectors = t.selectors →
            ∀ (proof : PlaceholderProof F (List UInt8) G1), proof.eval = (z, evalPoly q alpha • P.one1) →
              (proof.commitments.insert FIXED_BATCH pd.common.fixedCommitment).keys = openedBatches c →
              (∀ k ∈ openedBatches c, k ≠ FIXED_BATCH → ∀ blob, proof.commitments.find k = some blob →
                CommitsTo codec P.one1 alpha blob (committedPolys L c pre t m k)) →
              ∀ (vcom lcom pcom qcom : List UInt8), proof.commitments.find VARIABLE_BATCH = some vcom →
              (c.lookups.gates ≠ [] → proof.commitments.find LOOKUP_BATCH = some lcom) →
              (c.copies ≠ [] ∨ c.lookups.gates ≠ [] → proof.commitments.find PERMUTATION_BATCH = some pcom) →
              proof.commitments.find QUOTIENT_BATCH = some qcom →
              B.Avoided c m (readChallenges T c m.sorted.length vcom lcom pcom qcom
                (T.key pd.common.hash pd.common.fixedCommitment)) →
              (readChallenges T c m.sorted.length vcom lcom pcom qcom
                (T.key pd.common.hash pd.common.fixedCommitment)).y = y →
              KzgDraws C KT L n d c pd.common o0 z y
                (proof.commitments.insert FIXED_BATCH pd.common.fixedCommitment)
                (openingState T c m.sorted.length vcom lcom pcom qcom
                  (T.key pd.common.hash pd.common.fixedCommitment)) gamma →
              placeholderVerify C T L n true d c pd.common proof o0 = some true →
              CopiesHold d c.copies t.cellAt ∧ GatesHold t c.gates d.usableRows ∧
                (c.lookups.gates ≠ [] → LookupsHold t c.lookups d.usableRows) := by
  obtain ⟨B, hB, hsound⟩ := C66_soundness_partial hS hperm hdeg hdg hone hlone hdelta hlk
  refine ⟨B, hB, fun m hm z hz y hy => ?_⟩
  obtain ⟨badGamma, hbg, h⟩ := C102_opened_truly hS hperm hone hlone hn hr hu P hP dk tk hdk m hm z hz y hy
  refine ⟨badGamma, hbg, fun gamma hgamma q hq => ?_⟩
  obtain ⟨badTrapdoor, hbt, h⟩ := h gamma hgamma q hq
  refine ⟨badTrapdoor, hbt, fun alpha halpha S H codec hcodec KT T hash C hC pd o0 t0 hpre htc hts proof heval hkeys
    hcom vcom lcom pcom qcom hvc hlc hpc hqc hav hyy hdraw hacc => ?_⟩
  have ho := h alpha halpha codec hcodec KT T hash C hC pd o0 t0 hpre htc hts proof heval hkeys hcom vcom lcom pcom
    qcom hvc hlc hpc hqc hyy hdraw hacc
  refine hsound C T hash C.new o0 pd t0 hpre htc hts proof m hm ho vcom lcom pcom qcom hvc hlc hpc hqc ?_ hacc
  subst hC
  exact hav

/-- **C102**: the proofs of a prover that follows the protocol are of the form that `C102_kzg_sound_partial` asks
for (and they are accepted, by `C100_kzg_complete`). -/
theorem C102_honest_prover (hS : PlaceholderSetup L A n fuel d c order t)
    (hn : 1 ≤ n) (hr : RotationsDistinct n d c) (hu : c.lookups.gates ≠ [] → 2 ≤ d.usableRows)
    {P : Pairing F G1 G2 GT} {dk tk : Nat} (hdk : 2 ^ n ≤ dk) (htk : 2 ^ n ≤ tk) {alpha : F} {S H : Type}
    {codec : PointCodec G1} (hcodec : codec.Lawful) {KT : KzgTranscript S F} {T : PlonkTranscript S F H (List UInt8)}
    {hash : H} {pd : PublicData F H (List UInt8) Bool} {o0 : KzgScheme F}
    {C : CommScheme F S (List UInt8) G1 Bool (KzgScheme F)}
    (hC : C = kzgComm L P (batchedKzgSetup P dk tk alpha) codec KT)
    (hpre : placeholderPreprocess C T L n fuel d c order delta mqc hash t C.new = some (pd, o0))
    (hone : c.copies ≠ [] → pd.perm.parts = 1)
    (hlone : c.lookups.gates ≠ [] → (c.lookups.parts mqc).length = 1)
    {proof : PlaceholderProof F (List UInt8) G1}
    (hprove : placeholderProve C T L n d c order pd t o0 = some proof) (hy : proof.challenge ≠ 0)
    (hsort : ∀ vcom theta, proof.commitments.find VARIABLE_BATCH = some vcom →
      theta = lookupTheta T c pd.perm.parts vcom (T.key pd.common.hash pd.common.fixedCommitment) →
      c.lookups.gates ≠ [] → Sortable (compressedInputs t c.lookups n theta)
        (compressedValues t c.lookups n d.usableRows theta) (2 ^ n) d.usableRows) :
    ∃ (m : ProverMessages F) (q : List F), m.Sized n ∧ q.length ≤ dk ∧
      ValuesSized c (committedPolys L c pd.perm t m) proof.eval.1 ∧ proof.eval.2 = evalPoly q alpha • P.one1 ∧
      (proof.commitments.insert FIXED_BATCH pd.common.fixedCommitment).keys = openedBatches c ∧
      (∀ k ∈ openedBatches c, k ≠ FIXED_BATCH → ∃ blob, proof.commitments.find k = some blob ∧
        CommitsTo codec P.one1 alpha blob (committedPolys L c pd.perm t m k)) := by
  subst hC
  have hdk0 : 0 < dk := lt_of_lt_of_le (by positivity) hdk
  have hp := preprocess_facts hpre
  obtain ⟨D, h⟩ := prove_run (kzgComm_rootLaws KT _) hprove
  obtain ⟨-, -, -, -, -, -, -, -, -, -, s11, -⟩ := permPreprocess_shape hS.lib hS.small hp.perm
  have hus : pd.perm.usableRows ≤ 2 ^ n := by have := hS.rows; have := hS.usable; omega
  obtain ⟨c1, c2, c3, c4, -⟩ := h.find_commitments
  have hsort' := hsort D.vcom _ c1 (h.theta hS.lib hS.small hus)
  obtain ⟨hl, hpl, hvl, -⟩ := h.lengths hS hp hsort'
  obtain ⟨hpts, hvp, -, -⟩ := h.pts_eq hS hp
  have hok : ∀ k i, KzgPoints dk (challengeCoset L n proof.challenge) (lpcRequested k i D.pts) := by
    intro k i
    have hnd := requested_nodup hS hp hn hr hu hy hvp k i
    have hsub : ∀ x ∈ lpcRequested k i D.pts, x ∈ challengeCoset L n proof.challenge := by
      intro x hx
      obtain ⟨r, rfl⟩ := requested_rotation (columnsRotations_spec d c _ hp.rotations).1 hvp k i x hx
      exact mem_challengeCoset hS.lib hS.small hy r
    refine ⟨hnd, ?_, hsub⟩
    rw [← List.toFinset_card_of_nodup hnd]
    exact (Finset.card_le_card fun x hx => hsub x (List.mem_toFinset.1 hx)).trans ((challengeCoset_card _).trans hdk)
  have hops : ∀ op ∈ D.pts, (∃ k xs, op = .points k xs) ∨ ∃ k i xs, op = .pointsTo k i xs := by
    rw [hpts]; exact pointOps_ops _ _ _ _ _ _ _ _ _
  have sess := honest_session hS.lib hS.small (hasLaws_lpc A hS.small) hdk hl hops
    (okPoints := KzgPoints dk (challengeCoset L n proof.challenge)) (fun k i _ => hok k i)
  obtain ⟨hfind, -⟩ := kzgComm_complete hS.lib hcodec KT ((challengeCoset_card _).trans htk) hdk0 _ _ _ _ _ sess
    o0 D.obj _ _ D.st6 _ _ hp.run hp.data trivial h.run h.eval
  have hpre0 := (kzg_run_new KT _).symm.trans hp.run
  have hrun := (kzg_run_from KT _ _ _ hpre0).symm.trans h.run
  obtain ⟨V, hV1, hV2⟩ : ∃ V : List F, D.perm = (if c.copies = [] then [] else [V]) ∧ V.length ≤ 2 ^ n := by
    by_cases h0 : c.copies = []
    · exact ⟨[], by rw [if_pos h0, hl.noCopies h0], by simp⟩
    · obtain ⟨V, hV⟩ := List.length_eq_one_iff.1 (hpl.trans (hone h0))
      exact ⟨V, by rw [if_neg h0, hV], hl.permLen V (by simp [hV])⟩
  obtain ⟨lV, hlV1, hlV2⟩ : ∃ lV : List F, D.vl = (if c.lookups.gates = [] then [] else [lV]) ∧
      lV.length = 2 ^ n := by
    rcases h.lookupCase with ⟨h0, -, h1, -⟩ | ⟨h0, -, res, -, -, -, -, -, -, h1, -⟩
    · exact ⟨List.replicate (2 ^ n) 0, by rw [if_pos h0, h1], by simp⟩
    · have := hvl _ _ h1
      rw [hlone h0] at this
      rw [List.length_eq_zero_iff.1 this] at h1
      exact ⟨res.V, by rw [if_neg h0, h1], hl.vlLen _ (by simp [h1])⟩
  have hDs : D.sorted = if c.lookups.gates = [] then [] else D.sorted := by
    split_ifs with h0
    · exact (hl.noLookups h0).1
    · rfl
  have hcQ : ∀ k ∈ openedBatches c, committedPolys L c pd.perm t ⟨V, D.sorted, lV, D.chunks⟩ k =
      honestPolys L pd.perm t D.perm D.sorted D.vl D.chunks k := by
    intro k hk
    rw [committedPolys_eq pd.perm _ k hk, hV1, hlV1]
    dsimp only
    rw [← hDs]
  obtain ⟨q, hq1, hq2⟩ : ∃ q : List F, q.length ≤ dk ∧ proof.eval.2 = evalPoly q alpha • P.one1 := by
    have he : D.obj.proofEvalOn (batchedKzgSetup P dk tk alpha).ck KT _ = some (proof.eval, D.st6) := h.eval
    unfold KzgScheme.proofEvalOn at he
    obtain ⟨ev, -, he⟩ := Option.bind_eq_some_iff.1 he
    obtain ⟨ms, -, he⟩ := Option.bind_eq_some_iff.1 he
    obtain ⟨pr, hpr, he⟩ := Option.bind_eq_some_iff.1 he
    simp only [Option.some.injEq, Prod.mk.injEq] at he
    obtain ⟨rfl, -⟩ := he
    unfold KzgScheme.proofEval at hpr
    obtain ⟨ev', -, hpr⟩ := Option.bind_eq_some_iff.1 hpr
    obtain ⟨ms', -, hpr⟩ := Option.bind_eq_some_iff.1 hpr
    obtain ⟨items, -, hpr⟩ := Option.bind_eq_some_iff.1 hpr
    obtain ⟨com, hcom, hpr⟩ := Option.bind_eq_some_iff.1 hpr
    simp only [Option.some.injEq] at hpr
    rw [← hpr]
    replace hcom : kzgCommit (powerKey alpha P.one1 dk) _ = some com := hcom
    obtain ⟨e1, e2⟩ := mapM_kzgCommit alpha P.one1 dk [_] [com] (by
      rw [List.mapM_cons, hcom]
      rfl)
    refine ⟨_, e2 _ (List.mem_singleton.2 rfl), ?_⟩
    simpa using e1
  refine ⟨⟨V, D.sorted, lV, D.chunks⟩, q, ⟨hV2, hl.sortedLen, hlV2, hl.chunksLen⟩, hq1, ?_, hq2, ?_, ?_⟩
  · intro k hk
    rw [EvalStorage.batchSize, hfind k (by
      rw [List.mem_append, commit_mem_fixedOps, commit_mem_honestOps]
      exact (mem_openedBatches k).1 hk), hcQ k hk]
    simp
  · rw [h.commitments]
    rcases h.lookupCase with ⟨h1, -, -, -, h2, -⟩ | ⟨h1, -, -, com', -, -, h2, h3, -⟩ <;>
    rcases h.permCommit with ⟨h3, h3', h4⟩ | ⟨h3, com'', h4, -⟩ <;> rw [h2, h4]
    · simp only [openedBatches, h1, h3, and_self, if_true]
      rfl
    · simp only [openedBatches, h1, or_false, ne_eq, not_true_eq_false] at h3 ⊢
      simp only [h3, false_and, if_false, if_true]
      rfl
    · exact absurd h3' h1
    · simp only [openedBatches, h1, and_false, if_false]
      rfl
  · intro k hk hkf
    have hcm : LpcOp.commit k ∈ fixedOps L n pd.perm t ++ honestOps L n c t D.perm D.sorted D.vl D.chunks := by
      rw [List.mem_append, commit_mem_fixedOps, commit_mem_honestOps]
      exact (mem_openedBatches k).1 hk
    have hfound := (kzg_inv hrun).found k ((committed_container L k _).2 (by
      rw [← List.append_assoc]; exact List.mem_append_left _ hcm))
    have h8 := (h.coms hp.root k _).2 ⟨hcm, hfound⟩
    rw [OMap.find_insert, if_neg hkf] at h8
    refine ⟨_, h8, ?_⟩
    rw [hcQ k hk]
    refine blob_commitsTo hS.lib hcodec P.one1 alpha k ?_
    rw [← List.append_assoc, lpcAppended_append, (sess.appendedPts k).1, List.append_nil]
    exact sess.polys k

end Crypto3Zk
