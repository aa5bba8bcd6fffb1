import Verif.Props.PlaceholderKzgGatesSound
import Verif.Props.PlaceholderKzg2GatesSound
import Verif.Props.PlaceholderGatesSoundExample
import Verif.Props.PlaceholderKzgSoundExample

/-!
# C102 and C108 by parts, on a concrete circuit

The circuit and the table of `C66_gates_example`: the permutation argument has two parts, and a gate is violated.
-/

set_option linter.unusedSectionVars false

namespace Crypto3Zk

theorem exFourthDegree : ∀ g ∈ exFourthCircuit.gates, ∀ e ∈ g.constraints, e.degree ≤ 2 := by
  intro g hg e he
  simp only [exFourthCircuit, List.mem_singleton] at hg
  subst hg
  simp only [List.mem_singleton] at he
  subst he
  decide +kernel

theorem exFourthFit : DegreesFit exFourthCircuit where
  gates := by decide +kernel
  inputs := by decide +kernel
  total := by decide +kernel

/-- The batches other than the fixed one, as `C102_kzg_sound_by_parts_partial` asks for them. -/
theorem exFourth_commits {alpha : ZMod 257} {pre : PermData (ZMod 257)} {m : PartsMessages (ZMod 257)}
    {chunks : List (List (ZMod 257))} {coms : OMap (List UInt8)} {vcom pcom qcom : List UInt8}
    (h : coms = [(VARIABLE_BATCH, vcom), (PERMUTATION_BATCH, pcom), (QUOTIENT_BATCH, qcom)])
    (hv : CommitsTo exCodec257 (1 : ZMod 257) alpha vcom (committedParts (FftLib.ofRoots exRoots257) exFourthCircuit pre
      (exFourthTable 1 0 0 0 0 0 0 0) m chunks VARIABLE_BATCH))
    (hp : CommitsTo exCodec257 (1 : ZMod 257) alpha pcom (m.V :: m.partitions))
    (hq : CommitsTo exCodec257 (1 : ZMod 257) alpha qcom chunks) :
    ∀ k ∈ openedBatches exFourthCircuit, k ≠ FIXED_BATCH → ∀ blob, coms.find k = some blob →
      CommitsTo exCodec257 (1 : ZMod 257) alpha blob (committedParts (FftLib.ofRoots exRoots257) exFourthCircuit pre
        (exFourthTable 1 0 0 0 0 0 0 0) m chunks k) := by
  subst h
  intro k hk hkf blob hb
  rcases (mem_openedBatches k).1 hk with rfl | rfl | ⟨h, rfl⟩ | ⟨h, rfl⟩ | rfl
  · exact absurd rfl hkf
  · obtain rfl := Option.some_inj.1 ((rfl : some vcom = _).trans hb)
    exact hv
  · exact absurd rfl h
  · obtain rfl := Option.some_inj.1 ((rfl : some pcom = _).trans hb)
    have e : committedParts (FftLib.ofRoots exRoots257) exFourthCircuit pre (exFourthTable 1 0 0 0 0 0 0 0) m chunks
        PERMUTATION_BATCH = m.V :: m.partitions := by
      simp [committedParts, exFourthCircuit, FIXED_BATCH, VARIABLE_BATCH, PERMUTATION_BATCH]
    rw [e]
    exact hp
  · obtain rfl := Option.some_inj.1 ((rfl : some qcom = _).trans hb)
    exact hq

/-- **C102** by parts: a prover that is committed to a table with a violated gate is not accepted, although the
permutation argument has two parts, for all but few challenges and trapdoors. -/
theorem C102_gates_example (pre : PermData (ZMod 257))
    (hperm : permPreprocess (FftLib.ofRoots exRoots257) 2 (2 ^ 64) exFourthDesc exFourthCircuit.copies exPlonkOrder 3 3 =
      some pre) :
    pre.parts = 2 ∧ ∃ B : PartsBad (ZMod 257), B.Small exFourthCircuit 2 3 3 2 0 ∧
      ∀ m : PartsMessages (ZMod 257), m.Sized 2 exFourthCircuit 3 2 →
      ∀ chunks : List (List (ZMod 257)), (∀ ch ∈ chunks, ch.length ≤ 4) → ∀ z : EvalStorage (ZMod 257),
      ValuesSized exFourthCircuit (committedParts (FftLib.ofRoots exRoots257) exFourthCircuit pre
        (exFourthTable 1 0 0 0 0 0 0 0) m chunks) z →
      ∀ y, y ≠ 0 → ∃ badGamma : Finset (ZMod 257), badGamma.card ≤ 13 + chunks.length ∧
        ∀ gamma ∉ badGamma, ∀ q : List (ZMod 257), q.length ≤ 4 → ∃ badTrapdoor : Finset (ZMod 257),
          badTrapdoor.card ≤ 7 ∧ ∀ alpha ∉ badTrapdoor,
          ∀ {S H : Type} (KT : KzgTranscript S (ZMod 257)) (T : PlonkTranscript S (ZMod 257) H (List UInt8)) (hash : H)
            (C : CommScheme (ZMod 257) S (List UInt8) (ZMod 257) Bool (KzgScheme (ZMod 257))),
            C = kzgComm (FftLib.ofRoots exRoots257) exPairing257 (batchedKzgSetup exPairing257 4 4 alpha)
              exCodec257 KT →
            ∀ pd o0, placeholderPreprocess C T (FftLib.ofRoots exRoots257) 2 (2 ^ 64) exFourthDesc exFourthCircuit
              exPlonkOrder 3 3 hash (exFourthTable 0 0 0 0 0 0 0 0) C.new = some (pd, o0) →
            ∀ (proof : PlaceholderProof (ZMod 257) (List UInt8) (ZMod 257)), proof.eval = (z, evalPoly q alpha) →
              ∀ vcom pcom qcom,
              proof.commitments = [(VARIABLE_BATCH, vcom), (PERMUTATION_BATCH, pcom), (QUOTIENT_BATCH, qcom)] →
              CommitsTo exCodec257 (1 : ZMod 257) alpha vcom (committedParts (FftLib.ofRoots exRoots257) exFourthCircuit
                pre (exFourthTable 1 0 0 0 0 0 0 0) m chunks VARIABLE_BATCH) →
              CommitsTo exCodec257 (1 : ZMod 257) alpha pcom (m.V :: m.partitions) →
              CommitsTo exCodec257 (1 : ZMod 257) alpha qcom chunks →
              ∀ x, x = readPartsChallenges T exFourthCircuit 2 (exFourthCircuit.lookups.parts 3).length
                m.sorted.length vcom [] pcom qcom (T.key pd.common.hash pd.common.fixedCommitment) →
              B.GatesAvoided m chunks x → x.y = y →
              KzgDraws C KT (FftLib.ofRoots exRoots257) 2 exFourthDesc exFourthCircuit pd.common o0 z y
                (proof.commitments.insert FIXED_BATCH pd.common.fixedCommitment)
                (openingStateParts T exFourthCircuit 2 (exFourthCircuit.lookups.parts 3).length m.sorted.length vcom []
                  pcom qcom (T.key pd.common.hash pd.common.fixedCommitment)) gamma →
              placeholderVerify C T (FftLib.ofRoots exRoots257) 2 true exFourthDesc exFourthCircuit pd.common proof
                o0 ≠ some true := by
  obtain ⟨s1, s2, -, -, -, -, -, -, -, -, -, -, s13⟩ := permPreprocess_shape exLib257_lawful (by norm_num) hperm
  have hparts : pre.parts = 2 := Option.some_inj.1 (s13.symm.trans (by decide +kernel))
  refine ⟨hparts, ?_⟩
  obtain ⟨B, hB, h⟩ := C102_kzg_sound_by_parts_partial (dg := 2) exFourthWrongSetup hperm exFourthFit exFourthDegree
    (fun h => absurd rfl h) 0 (by norm_num) exFourthRotations (fun h => absurd rfl h) exPairing257 (by decide) 4 4
    (by norm_num)
  rw [hparts] at h
  refine ⟨B, hB, fun m hm chunks hch z hz y hy => ?_⟩
  obtain ⟨badGamma, hbg, h⟩ := h m hm chunks hch z hz y hy
  refine ⟨badGamma, hbg.trans ?_, fun gamma hgamma q hq => ?_⟩
  · have := hm.count (by decide)
    simp [openedBatches, exFourthCircuit, committedParts, s1, s2, exFourthTable, FIXED_BATCH, VARIABLE_BATCH,
      QUOTIENT_BATCH, PERMUTATION_BATCH, exPlonkOrder]
    omega
  obtain ⟨badTrapdoor, hbt, h⟩ := h gamma hgamma q hq
  refine ⟨badTrapdoor, hbt, fun alpha halpha S H KT T hash C hC pd o0 hpre proof heval vcom pcom qcom hcoms hv hp hq
    x hx hav hyy hdraw hacc => ?_⟩
  exact exFourthWrong_gates (h alpha halpha exCodec257 exCodec257_lawful KT T hash C hC pd o0 _ hpre rfl rfl proof
    (by rw [heval]; simp [exPairing257]) (by rw [hcoms]; rfl) (exFourth_commits hcoms hv hp hq) vcom [] pcom qcom
    (by rw [hcoms]; rfl) (fun h => absurd rfl h) (fun _ => by rw [hcoms]; rfl) (by rw [hcoms]; rfl) x hx hav hyy hdraw
    hacc).1

/-- **C108** by parts, over the second scheme: a prover that is committed to a table with a violated gate is not accepted, although the
permutation argument has two parts, for all but few challenges and trapdoors. -/
theorem C108_gates_example (pre : PermData (ZMod 257))
    (hperm : permPreprocess (FftLib.ofRoots exRoots257) 2 (2 ^ 64) exFourthDesc exFourthCircuit.copies exPlonkOrder 3 3 =
      some pre) :
    pre.parts = 2 ∧ ∃ B : PartsBad (ZMod 257), B.Small exFourthCircuit 2 3 3 2 0 ∧
      ∀ m : PartsMessages (ZMod 257), m.Sized 2 exFourthCircuit 3 2 →
      ∀ chunks : List (List (ZMod 257)), (∀ ch ∈ chunks, ch.length ≤ 4) → ∀ z : EvalStorage (ZMod 257),
      ValuesSized exFourthCircuit (committedParts (FftLib.ofRoots exRoots257) exFourthCircuit pre
        (exFourthTable 1 0 0 0 0 0 0 0) m chunks) z →
      ∀ y, y ≠ 0 → ∃ badTheta : Finset (ZMod 257), badTheta.card ≤ 13 + chunks.length ∧
        ∀ theta ∉ badTheta, ∀ g : List (ZMod 257), g.length ≤ 4 → ∃ badTheta2 : Finset (ZMod 257),
          badTheta2.card ≤ 7 ∧ ∀ theta2 ∉ badTheta2, ∀ q : List (ZMod 257), q.length ≤ 4 →
          ∃ badTrapdoor : Finset (ZMod 257), badTrapdoor.card ≤ 4 ∧ ∀ alpha ∉ badTrapdoor,
          ∀ {S H : Type} (KT : KzgTranscript S (ZMod 257)) (T : PlonkTranscript S (ZMod 257) H (List UInt8)) (hash : H)
            (C : CommScheme (ZMod 257) S (List UInt8) (ZMod 257 × ZMod 257) Bool (KzgScheme (ZMod 257))),
            C = kzg2Comm (FftLib.ofRoots exRoots257) exPairing257 (batchedKzgSetup exPairing257 4 4 alpha)
              exCodec257 KT →
            ∀ pd o0, placeholderPreprocess C T (FftLib.ofRoots exRoots257) 2 (2 ^ 64) exFourthDesc exFourthCircuit
              exPlonkOrder 3 3 hash (exFourthTable 0 0 0 0 0 0 0 0) C.new = some (pd, o0) →
            ∀ (proof : PlaceholderProof (ZMod 257) (List UInt8) (ZMod 257 × ZMod 257)),
              proof.eval = (z, evalPoly g alpha, evalPoly q alpha) →
              ∀ vcom pcom qcom,
              proof.commitments = [(VARIABLE_BATCH, vcom), (PERMUTATION_BATCH, pcom), (QUOTIENT_BATCH, qcom)] →
              CommitsTo exCodec257 (1 : ZMod 257) alpha vcom (committedParts (FftLib.ofRoots exRoots257) exFourthCircuit
                pre (exFourthTable 1 0 0 0 0 0 0 0) m chunks VARIABLE_BATCH) →
              CommitsTo exCodec257 (1 : ZMod 257) alpha pcom (m.V :: m.partitions) →
              CommitsTo exCodec257 (1 : ZMod 257) alpha qcom chunks →
              ∀ x, x = readPartsChallenges T exFourthCircuit 2 (exFourthCircuit.lookups.parts 3).length
                m.sorted.length vcom [] pcom qcom (T.key pd.common.hash pd.common.fixedCommitment) →
              B.GatesAvoided m chunks x → x.y = y →
              KzgDrawsTwo C KT exCodec257 (FftLib.ofRoots exRoots257) 2 exFourthDesc exFourthCircuit pd.common o0 z y
                (proof.commitments.insert FIXED_BATCH pd.common.fixedCommitment)
                (openingStateParts T exFourthCircuit 2 (exFourthCircuit.lookups.parts 3).length m.sorted.length vcom []
                  pcom qcom (T.key pd.common.hash pd.common.fixedCommitment)) (evalPoly g alpha) theta theta2 →
              placeholderVerify C T (FftLib.ofRoots exRoots257) 2 true exFourthDesc exFourthCircuit pd.common proof
                o0 ≠ some true := by
  obtain ⟨s1, s2, -, -, -, -, -, -, -, -, -, -, s13⟩ := permPreprocess_shape exLib257_lawful (by norm_num) hperm
  have hparts : pre.parts = 2 := Option.some_inj.1 (s13.symm.trans (by decide +kernel))
  refine ⟨hparts, ?_⟩
  obtain ⟨B, hB, h⟩ := C108_kzg2_sound_by_parts_partial (dg := 2) exFourthWrongSetup hperm exFourthFit exFourthDegree
    (fun h => absurd rfl h) 0 (by norm_num) exFourthRotations (fun h => absurd rfl h) exPairing257 (by decide) 4 4
    (by norm_num)
  rw [hparts] at h
  refine ⟨B, hB, fun m hm chunks hch z hz y hy => ?_⟩
  obtain ⟨badTheta, hbg, h⟩ := h m hm chunks hch z hz y hy
  refine ⟨badTheta, hbg.trans ?_, fun theta htheta g hg => ?_⟩
  · have := hm.count (by decide)
    simp [openedBatches, exFourthCircuit, committedParts, s1, s2, exFourthTable, FIXED_BATCH, VARIABLE_BATCH,
      QUOTIENT_BATCH, PERMUTATION_BATCH, exPlonkOrder]
    omega
  obtain ⟨badTheta2, hbt2, h⟩ := h theta htheta g hg
  refine ⟨badTheta2, hbt2, fun theta2 htheta2 q hq => ?_⟩
  obtain ⟨badTrapdoor, hbt, h⟩ := h theta2 htheta2 q hq
  refine ⟨badTrapdoor, hbt, fun alpha halpha S H KT T hash C hC pd o0 hpre proof heval vcom pcom qcom hcoms hv hp hq
    x hx hav hyy hdraw hacc => ?_⟩
  exact exFourthWrong_gates (h alpha halpha exCodec257 exCodec257_lawful KT T hash C hC pd o0 _ hpre rfl rfl proof
    (by rw [heval]; simp [exPairing257]) (by rw [hcoms]; rfl) (exFourth_commits hcoms hv hp hq) vcom [] pcom qcom
    (by rw [hcoms]; rfl) (fun h => absurd rfl h) (fun _ => by rw [hcoms]; rfl) (by rw [hcoms]; rfl) x hx hav hyy
    (by simpa [exPairing257] using hdraw) hacc).1

end Crypto3Zk
