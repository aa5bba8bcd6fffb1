import Verif.Props.PlaceholderPublicSound
import Verif.Props.PlaceholderPublicKzg2
import Verif.Props.PlaceholderKzgGatesSound
import Verif.Props.PlaceholderKzg2GatesSound

/-!
# C103: a proof and its public inputs, for any number of parts
-/

set_option linter.unusedSectionVars false

namespace Crypto3Zk

open Polynomial

section
variable {F : Type} [Field F] [DecidableEq F]
variable {L : FftLib F} {A n fuel : Nat} {d : TableDesc} {c : Circuit F} {order : List PlonkVar}
  {t : PlonkTable F} {delta : F} {mqc : Nat} {pre : PermData F}

/-- Polynomials that are opened truly include the columns of the table. -/
theorem OpenedParts.variable {H Com Data Pr : Type} {common : CommonData F H Com Data} {m : PartsMessages F}
    {chunks : List (List F)}
    {proof : PlaceholderProof F Com Pr} (h : OpenedParts L n d c common pre t m chunks proof) :
    VariableOpened L n d c common t proof := by
  intro pts hpts
  rw [h pts hpts VARIABLE_BATCH (Or.inr (Or.inl rfl)), Option.some_inj]
  simp only [committedParts, VARIABLE_BATCH, FIXED_BATCH]
  rw [if_neg (by decide), if_pos trivial, ← List.map_append]
  apply List.ext_getElem (by simp)
  intro i h1 h2
  simp only [List.getElem_mapIdx, List.getElem_map]
  refine List.map_congr_left fun x _ => ?_
  rw [dfsPoly, eval_toPoly]

/-- **C103** by parts: as `C103_statement_partial`, for any numbers of parts of the permutation and lookup arguments.
With public inputs that are chosen before the challenge `y` is drawn, an accepted proof says that the table has these public
inputs and satisfies the gates; the copy constraints if the permutation argument has one part, and the lookups if the
lookup argument has one part. -/
theorem C103_statement_by_parts_partial (hS : PlaceholderSetup L A n fuel d c order t)
    (hperm : permPreprocess L n fuel d c.copies order delta mqc = some pre) (hdeg : DegreesFit c)
    {dg : Nat} (hdg : ∀ g ∈ c.gates, ∀ e ∈ g.constraints, e.degree ≤ dg)
    (hne : c.lookups.gates ≠ [] → ∀ p ∈ c.lookups.parts mqc, p ≠ 0) (w : Nat)
    (hrot : ∀ i r, VarUsed d c (d.witness + i) r → 0 ≤ r) :
    ∃ B : PartsBad F, B.Small c n d.usableRows order.length dg w ∧
      ∀ publicInput : List (List F),
      (∀ i xs, publicInput[i]? = some xs → publicSize c.publicInputSizes i xs ≤ 2 ^ n) →
      ∃ badY : Finset F, badY.card ≤ publicInput.length * (2 ^ n - 1) ∧
      ∀ {S H Com Pr Data Obj : Type} (C : CommScheme F S Com Pr Data Obj) (T : PlonkTranscript S F H Com)
        (hash : H) (obj o0 : Obj) (pd : PublicData F H Com Data) (t0 : PlonkTable F),
        placeholderPreprocess C T L n fuel d c order delta mqc hash t0 obj = some (pd, o0) →
        t0.constants = t.constants → t0.selectors = t.selectors →
        ∀ (proof : PlaceholderProof F Com Pr) (m : PartsMessages F) (chunks : List (List F)),
          m.Sized n c mqc pre.parts → (∀ ch ∈ chunks, ch.length ≤ 2 ^ n) →
          OpenedParts L n d c pd.common pre t m chunks proof →
          ∀ (vcom lcom pcom qcom : Com), proof.commitments.find VARIABLE_BATCH = some vcom →
            (c.lookups.gates ≠ [] → proof.commitments.find LOOKUP_BATCH = some lcom) →
            (c.copies ≠ [] ∨ c.lookups.gates ≠ [] → proof.commitments.find PERMUTATION_BATCH = some pcom) →
            proof.commitments.find QUOTIENT_BATCH = some qcom →
            ∀ x, x = readPartsChallenges T c pre.parts (c.lookups.parts mqc).length m.sorted.length
              vcom lcom pcom qcom
              (C.setup o0 (T.key pd.common.hash pd.common.fixedCommitment) pd.common.schemeData).1 →
            B.GatesAvoided m chunks x → x.y ∉ badY →
            placeholderVerifyPublic C T L n true d c pd.common proof o0 publicInput = some true →
            GatesHold t c.gates d.usableRows ∧
              (c.copies ≠ [] → pre.parts = 1 → DeltaSeparates n order.length delta → B.CopiesAvoided x.early →
                CopiesHold d c.copies t.cellAt) ∧
              (c.lookups.gates ≠ [] → (c.lookups.parts mqc).length = 1 →
                LookupsCheckable t c.lookups d.usableRows w → B.LookupsAvoided m.sorted x.early →
                LookupsHold t c.lookups d.usableRows) ∧
              PublicInputsIn c n t publicInput := by
  obtain ⟨B, hB, hsound⟩ := C66_sound_by_parts_partial hS hperm hdeg hdg hne w
  refine ⟨B, hB, fun publicInput hfit => ?_⟩
  obtain ⟨badY, hbY, hbound⟩ := public_inputs_bound (delta := delta) (mqc := mqc) hS hrot publicInput hfit
  refine ⟨badY, hbY, ?_⟩
  intro S H Com Pr Data Obj C T hash obj o0 pd t0 hpre htc hts proof m chunks hm hch ho vcom lcom pcom qcom hvc hlc hpc hqc
    x hx hav hy hacc
  have hacc' := ((C38_verdict hS.lib hS.small hS.rows true publicInput hfit).1 hacc).2.1
  obtain ⟨h1, h2, h3⟩ := hsound C T hash obj o0 pd t0 hpre htc hts proof m chunks hm hch ho vcom lcom pcom qcom hvc hlc
    hpc hqc x hx hav hacc'
  refine ⟨h1, h2, h3, hbound C T hash obj o0 pd t0 hpre proof ho.variable ?_ true hacc⟩
  have hp := preprocess_facts hpre
  have hpe : pre = pd.perm := Option.some_inj.1 (hperm.symm.trans hp.perm)
  have hpts := verifierPoints_eq L n d c pd.common proof.challenge (columnsRotations_spec d c _ hp.rotations).1
  have e1 := (accepted_parts_opening (m := m)
    (fun h => by
      have := ho _ hpts LOOKUP_BATCH (Or.inr (Or.inr (Or.inl ⟨h, rfl⟩)))
      simp [EvalStorage.batchSize, this, committedParts, LOOKUP_BATCH, FIXED_BATCH, VARIABLE_BATCH,
        PERMUTATION_BATCH, QUOTIENT_BATCH])
    hacc' hvc hlc hpc hqc rfl).1
  rw [hp.parts, ← hpe, hp.mqcEq] at e1
  rw [← e1, ← hx]
  exact hy

end

/-! ### over KZG -/

section
variable {F : Type} [Field F] [LinearOrder F] {G1 G2 GT : Type} [AddCommGroup G1] [Module F G1]
  [AddCommGroup G2] [Module F G2] [AddCommGroup GT] [Module F GT] [DecidableEq GT]
variable {L : FftLib F} {A n fuel : Nat} {d : TableDesc} {c : Circuit F} {order : List PlonkVar}
  {t : PlonkTable F} {delta : F} {mqc : Nat} {pre : PermData F}

/-- **C103** by parts, for placeholder over KZG. The provers are those of `C102_kzg_sound_by_parts_partial`. -/
theorem C103_kzg_statement_by_parts_partial (hS : PlaceholderSetup L A n fuel d c order t)
    (hperm : permPreprocess L n fuel d c.copies order delta mqc = some pre) (hdeg : DegreesFit c)
    {dg : Nat} (hdg : ∀ g ∈ c.gates, ∀ e ∈ g.constraints, e.degree ≤ dg)
    (hne : c.lookups.gates ≠ [] → ∀ p ∈ c.lookups.parts mqc, p ≠ 0) (w : Nat)
    (hrot : ∀ i r, VarUsed d c (d.witness + i) r → 0 ≤ r)
    (hn : 1 ≤ n) (hr : RotationsDistinct n d c) (hu : c.lookups.gates ≠ [] → 2 ≤ d.usableRows)
    (P : Pairing F G1 G2 GT) (hP : P.e P.one1 P.one2 ≠ 0) (dk tk : Nat) (hdk : 2 ^ n ≤ dk) :
    ∃ B : PartsBad F, B.Small c n d.usableRows order.length dg w ∧
      ∀ publicInput : List (List F),
      (∀ i xs, publicInput[i]? = some xs → publicSize c.publicInputSizes i xs ≤ 2 ^ n) →
      ∃ badY : Finset F, badY.card ≤ publicInput.length * (2 ^ n - 1) ∧
      ∀ m : PartsMessages F, m.Sized n c mqc pre.parts →
      ∀ chunks : List (List F), (∀ ch ∈ chunks, ch.length ≤ 2 ^ n) → ∀ z : EvalStorage F,
      ValuesSized c (committedParts L c pre t m chunks) z →
      ∀ y : F, y ≠ 0 → y ∉ badY → ∃ badGamma : Finset F,
        badGamma.card ≤ ((openedBatches c).map fun k => (committedParts L c pre t m chunks k).length).sum - 1 ∧
        ∀ gamma ∉ badGamma, ∀ q : List F, q.length ≤ dk → ∃ badTrapdoor : Finset F,
          badTrapdoor.card ≤ dk - 1 + 2 ^ n ∧ ∀ alpha ∉ badTrapdoor,
          ∀ {S H : Type} (codec : PointCodec G1) (_ : codec.Lawful) (KT : KzgTranscript S F)
            (T : PlonkTranscript S F H (List UInt8)) (hash : H)
            (C : CommScheme F S (List UInt8) G1 Bool (KzgScheme F)),
            C = kzgComm L P (batchedKzgSetup P dk tk alpha) codec KT →
            ∀ (pd : PublicData F H (List UInt8) Bool) (o0 : KzgScheme F) (t0 : PlonkTable F),
            placeholderPreprocess C T L n fuel d c order delta mqc hash t0 C.new = some (pd, o0) →
            t0.constants = t.constants → t0.selectors = t.selectors →
            ∀ (proof : PlaceholderProof F (List UInt8) G1), proof.eval = (z, evalPoly q alpha • P.one1) →
              (proof.commitments.insert FIXED_BATCH pd.common.fixedCommitment).keys = openedBatches c →
              (∀ k ∈ openedBatches c, k ≠ FIXED_BATCH → ∀ blob, proof.commitments.find k = some blob →
                CommitsTo codec P.one1 alpha blob (committedParts L c pre t m chunks k)) →
              ∀ (vcom lcom pcom qcom : List UInt8), proof.commitments.find VARIABLE_BATCH = some vcom →
              (c.lookups.gates ≠ [] → proof.commitments.find LOOKUP_BATCH = some lcom) →
              (c.copies ≠ [] ∨ c.lookups.gates ≠ [] → proof.commitments.find PERMUTATION_BATCH = some pcom) →
              proof.commitments.find QUOTIENT_BATCH = some qcom →
              ∀ x : PartsChallenges F, x = readPartsChallenges T c pre.parts (c.lookups.parts mqc).length
                m.sorted.length vcom lcom pcom qcom (T.key pd.common.hash pd.common.fixedCommitment) →
              B.GatesAvoided m chunks x → x.y = y →
              KzgDraws C KT L n d c pd.common o0 z y
                (proof.commitments.insert FIXED_BATCH pd.common.fixedCommitment)
                (openingStateParts T c pre.parts (c.lookups.parts mqc).length m.sorted.length vcom lcom pcom qcom
                  (T.key pd.common.hash pd.common.fixedCommitment)) gamma →
              placeholderVerifyPublic C T L n true d c pd.common proof o0 publicInput = some true →
              GatesHold t c.gates d.usableRows ∧
              (c.copies ≠ [] → pre.parts = 1 → DeltaSeparates n order.length delta → B.CopiesAvoided x.early →
                CopiesHold d c.copies t.cellAt) ∧
              (c.lookups.gates ≠ [] → (c.lookups.parts mqc).length = 1 →
                LookupsCheckable t c.lookups d.usableRows w → B.LookupsAvoided m.sorted x.early →
                LookupsHold t c.lookups d.usableRows) ∧
              PublicInputsIn c n t publicInput := by
  obtain ⟨B, hB, hsound⟩ := C103_statement_by_parts_partial hS hperm hdeg hdg hne w hrot
  refine ⟨B, hB, fun publicInput hfit => ?_⟩
  obtain ⟨badY, hbY, hsound⟩ := hsound publicInput hfit
  refine ⟨badY, hbY, fun m hm chunks hch z hz y hy hyb => ?_⟩
  obtain ⟨badGamma, hbg, h⟩ := C102_opened_parts hS hperm hn hr hu P hP dk tk hdk m hm chunks hch z hz y hy
  refine ⟨badGamma, hbg, fun gamma hgamma q hq => ?_⟩
  obtain ⟨badTrapdoor, hbt, h⟩ := h gamma hgamma q hq
  refine ⟨badTrapdoor, hbt, fun alpha halpha S H codec hcodec KT T hash C hC pd o0 t0 hpre htc hts proof heval hkeys
    hcom vcom lcom pcom qcom hvc hlc hpc hqc x hx hav hyy hdraw hacc => ?_⟩
  have hacc' := ((C38_verdict hS.lib hS.small hS.rows true publicInput hfit).1 hacc).2.1
  have ho := h alpha halpha codec hcodec KT T hash C hC pd o0 t0 hpre htc hts proof heval hkeys hcom vcom lcom pcom
    qcom hvc hlc hpc hqc (hx ▸ hyy) hdraw hacc'
  refine hsound C T hash C.new o0 pd t0 hpre htc hts proof m chunks hm hch ho vcom lcom pcom qcom hvc hlc hpc hqc x ?_
    hav (hyy ▸ hyb) hacc
  subst hC
  exact hx

/-- **C103** by parts, for placeholder over the second KZG scheme. The provers are those of
`C108_kzg2_sound_by_parts_partial`. -/
theorem C103_kzg2_statement_by_parts_partial (hS : PlaceholderSetup L A n fuel d c order t)
    (hperm : permPreprocess L n fuel d c.copies order delta mqc = some pre) (hdeg : DegreesFit c)
    {dg : Nat} (hdg : ∀ g ∈ c.gates, ∀ e ∈ g.constraints, e.degree ≤ dg)
    (hne : c.lookups.gates ≠ [] → ∀ p ∈ c.lookups.parts mqc, p ≠ 0) (w : Nat)
    (hrot : ∀ i r, VarUsed d c (d.witness + i) r → 0 ≤ r)
    (hn : 1 ≤ n) (hr : RotationsDistinct n d c) (hu : c.lookups.gates ≠ [] → 2 ≤ d.usableRows)
    (P : Pairing F G1 G2 GT) (hP : P.e P.one1 P.one2 ≠ 0) (dk tk : Nat) (hdk : 2 ^ n ≤ dk) :
    ∃ B : PartsBad F, B.Small c n d.usableRows order.length dg w ∧
      ∀ publicInput : List (List F),
      (∀ i xs, publicInput[i]? = some xs → publicSize c.publicInputSizes i xs ≤ 2 ^ n) →
      ∃ badY : Finset F, badY.card ≤ publicInput.length * (2 ^ n - 1) ∧
      ∀ m : PartsMessages F, m.Sized n c mqc pre.parts →
      ∀ chunks : List (List F), (∀ ch ∈ chunks, ch.length ≤ 2 ^ n) → ∀ z : EvalStorage F,
      ValuesSized c (committedParts L c pre t m chunks) z →
      ∀ y : F, y ≠ 0 → y ∉ badY → ∃ badTheta : Finset F,
        badTheta.card ≤ ((openedBatches c).map fun k => (committedParts L c pre t m chunks k).length).sum - 1 ∧
        ∀ theta ∉ badTheta, ∀ g : List F, g.length ≤ dk → ∃ badTheta2 : Finset F,
          badTheta2.card ≤ dk - 1 + 2 ^ n ∧ ∀ theta2 ∉ badTheta2, ∀ q : List F, q.length ≤ dk →
          ∃ badTrapdoor : Finset F, badTrapdoor.card ≤ dk ∧ ∀ alpha ∉ badTrapdoor,
          ∀ {S H : Type} (codec : PointCodec G1) (_ : codec.Lawful) (KT : KzgTranscript S F)
            (T : PlonkTranscript S F H (List UInt8)) (hash : H)
            (C : CommScheme F S (List UInt8) (G1 × G1) Bool (KzgScheme F)),
            C = kzg2Comm L P (batchedKzgSetup P dk tk alpha) codec KT →
            ∀ (pd : PublicData F H (List UInt8) Bool) (o0 : KzgScheme F) (t0 : PlonkTable F),
            placeholderPreprocess C T L n fuel d c order delta mqc hash t0 C.new = some (pd, o0) →
            t0.constants = t.constants → t0.selectors = t.selectors →
            ∀ (proof : PlaceholderProof F (List UInt8) (G1 × G1)),
              proof.eval = (z, evalPoly g alpha • P.one1, evalPoly q alpha • P.one1) →
              (proof.commitments.insert FIXED_BATCH pd.common.fixedCommitment).keys = openedBatches c →
              (∀ k ∈ openedBatches c, k ≠ FIXED_BATCH → ∀ blob, proof.commitments.find k = some blob →
                CommitsTo codec P.one1 alpha blob (committedParts L c pre t m chunks k)) →
              ∀ (vcom lcom pcom qcom : List UInt8), proof.commitments.find VARIABLE_BATCH = some vcom →
              (c.lookups.gates ≠ [] → proof.commitments.find LOOKUP_BATCH = some lcom) →
              (c.copies ≠ [] ∨ c.lookups.gates ≠ [] → proof.commitments.find PERMUTATION_BATCH = some pcom) →
              proof.commitments.find QUOTIENT_BATCH = some qcom →
              ∀ x : PartsChallenges F, x = readPartsChallenges T c pre.parts (c.lookups.parts mqc).length
                m.sorted.length vcom lcom pcom qcom (T.key pd.common.hash pd.common.fixedCommitment) →
              B.GatesAvoided m chunks x → x.y = y →
              KzgDrawsTwo C KT codec L n d c pd.common o0 z y
                (proof.commitments.insert FIXED_BATCH pd.common.fixedCommitment)
                (openingStateParts T c pre.parts (c.lookups.parts mqc).length m.sorted.length vcom lcom pcom qcom
                  (T.key pd.common.hash pd.common.fixedCommitment)) (evalPoly g alpha • P.one1) theta theta2 →
              placeholderVerifyPublic C T L n true d c pd.common proof o0 publicInput = some true →
              GatesHold t c.gates d.usableRows ∧
              (c.copies ≠ [] → pre.parts = 1 → DeltaSeparates n order.length delta → B.CopiesAvoided x.early →
                CopiesHold d c.copies t.cellAt) ∧
              (c.lookups.gates ≠ [] → (c.lookups.parts mqc).length = 1 →
                LookupsCheckable t c.lookups d.usableRows w → B.LookupsAvoided m.sorted x.early →
                LookupsHold t c.lookups d.usableRows) ∧
              PublicInputsIn c n t publicInput := by
  obtain ⟨B, hB, hsound⟩ := C103_statement_by_parts_partial hS hperm hdeg hdg hne w hrot
  refine ⟨B, hB, fun publicInput hfit => ?_⟩
  obtain ⟨badY, hbY, hsound⟩ := hsound publicInput hfit
  refine ⟨badY, hbY, fun m hm chunks hch z hz y hy hyb => ?_⟩
  obtain ⟨badTheta, hbg, h⟩ := C108_opened_parts hS hperm hn hr hu P hP dk tk hdk m hm chunks hch z hz y hy
  refine ⟨badTheta, hbg, fun theta htheta g hg => ?_⟩
  obtain ⟨badTheta2, hbt2, h⟩ := h theta htheta g hg
  refine ⟨badTheta2, hbt2, fun theta2 htheta2 q hq => ?_⟩
  obtain ⟨badTrapdoor, hbt, h⟩ := h theta2 htheta2 q hq
  refine ⟨badTrapdoor, hbt, fun alpha halpha S H codec hcodec KT T hash C hC pd o0 t0 hpre htc hts proof heval hkeys
    hcom vcom lcom pcom qcom hvc hlc hpc hqc x hx hav hyy hdraw hacc => ?_⟩
  have hacc' := ((C38_verdict hS.lib hS.small hS.rows true publicInput hfit).1 hacc).2.1
  have ho := h alpha halpha codec hcodec KT T hash C hC pd o0 t0 hpre htc hts proof heval hkeys hcom vcom lcom pcom
    qcom hvc hlc hpc hqc (hx ▸ hyy) hdraw hacc'
  refine hsound C T hash C.new o0 pd t0 hpre htc hts proof m chunks hm hch ho vcom lcom pcom qcom hvc hlc hpc hqc x ?_
    hav (hyy ▸ hyb) hacc
  subst hC
  exact hx

end

end Crypto3Zk
