import Verif.Props.PlaceholderKzg2Sound
import Verif.Props.PlaceholderKzgSoundExample

/-!
# C108: examples for placeholder over the second KZG scheme
-/

set_option linter.unusedSectionVars false

namespace Crypto3Zk

/-- **C108**, an example: `3` is not a square modulo 257, so that no table with this public input satisfies the
circuit (`C102_example`); still there is a proof that is accepted with it, for every trapdoor and all transcripts
(with challenges other than zero and the rows). -/
theorem C108_example :
    ∀ (alpha : ZMod 257) (S H : Type) (KT : KzgTranscript S (ZMod 257))
      (T : PlonkTranscript S (ZMod 257) H (List UInt8)) (hash : H)
      (C : CommScheme (ZMod 257) S (List UInt8) (ZMod 257 × ZMod 257) Bool (KzgScheme (ZMod 257))),
      C = kzg2Comm (FftLib.ofRoots exRoots257) exPairing257 (batchedKzgSetup exPairing257 4 1 alpha) exCodec257 KT →
      (∀ st, (T.challenge st).1 ≠ 0 ∧ (T.challenge st).1 ^ 4 ≠ 1) →
      ∃ pd o0 proof,
        placeholderPreprocess C T (FftLib.ofRoots exRoots257) 2 (2 ^ 64) exSquareDesc exSquareCircuit [] 3 0 hash
          exSquareTable C.new = some (pd, o0) ∧
        placeholderVerifyPublic C T (FftLib.ofRoots exRoots257) 2 true exSquareDesc exSquareCircuit pd.common
          proof o0 [[3]] = some true := by
  intro alpha S H KT T hash C hC hT
  obtain ⟨_, -, hpp⟩ := C65_preprocessor_succeeds (mqc := 0) exSquareSetup (by decide +kernel) (.inl rfl) 3
  obtain ⟨pd, o0, -, hpre⟩ := hpp C T hash (Has := fun f c => f.Has (FftLib.ofRoots exRoots257) 4 c) (maxLen := 4)
    (by rw [hC]; exact kzg2Comm_totalSetup exLib257_lawful (by norm_num) KT)
    (hasLaws_lpc 4 (by norm_num)) (by norm_num)
  obtain ⟨st, h⟩ := C108_kzg2_forgery exSquareSetup rfl rfl (by norm_num) exSquareRotations
    (.inl (by simp [exSquareTable])) exPairing257 4 1 alpha
    exCodec257 exCodec257_lawful (by norm_num) (by norm_num) KT T hash C hC pd o0 hpre
  obtain ⟨proof, hy, -, h⟩ := h (hT st).1
  refine ⟨pd, o0, proof, hpre, (h true).2 (fun k _ hk => (hT st).2 ?_) _ exSquarePublic⟩
  rw [← hy, hk, ← pow_mul, mul_comm, pow_mul]
  have : (FftLib.ofRoots exRoots257).root 2 ^ 4 = 1 := by decide
  rw [this, one_pow]

/-- **C108** on the table of `C108_example`, whose public input is not a square: with as many values as polynomials,
no proof of a prover that combines elements of the key is accepted, for all but few challenges and trapdoors. -/
theorem C108_sound_example (pre : PermData (ZMod 257))
    (hperm : permPreprocess (FftLib.ofRoots exRoots257) 2 (2 ^ 64) exSquareDesc [] [] 3 0 = some pre) :
    ∃ B : BadChallenges (ZMod 257), B.Small exSquareCircuit 2 3 0 2 0 ∧
      ∀ m : ProverMessages (ZMod 257), m.Sized 2 → ∀ z : EvalStorage (ZMod 257),
      ValuesSized exSquareCircuit (committedPolys (FftLib.ofRoots exRoots257) exSquareCircuit pre exSquareTable m) z →
      ∀ y, y ≠ 0 → ∃ badTheta : Finset (ZMod 257), badTheta.card ≤ 4 + m.chunks.length ∧
        ∀ theta ∉ badTheta, ∀ g : List (ZMod 257), g.length ≤ 4 → ∃ badTheta2 : Finset (ZMod 257),
          badTheta2.card ≤ 7 ∧ ∀ theta2 ∉ badTheta2, ∀ q : List (ZMod 257), q.length ≤ 4 →
          ∃ badTrapdoor : Finset (ZMod 257), badTrapdoor.card ≤ 4 ∧ ∀ alpha ∉ badTrapdoor,
          ∀ {S H : Type} (KT : KzgTranscript S (ZMod 257)) (T : PlonkTranscript S (ZMod 257) H (List UInt8)) (hash : H)
            (C : CommScheme (ZMod 257) S (List UInt8) (ZMod 257 × ZMod 257) Bool (KzgScheme (ZMod 257))),
            C = kzg2Comm (FftLib.ofRoots exRoots257) exPairing257 (batchedKzgSetup exPairing257 4 1 alpha)
              exCodec257 KT →
            ∀ pd o0, placeholderPreprocess C T (FftLib.ofRoots exRoots257) 2 (2 ^ 64) exSquareDesc exSquareCircuit []
              3 0 hash exSquareTable C.new = some (pd, o0) →
            ∀ (proof : PlaceholderProof (ZMod 257) (List UInt8) (ZMod 257 × ZMod 257)), 
              proof.eval = (z, evalPoly g alpha, evalPoly q alpha) →
              ∀ vcom qcom, proof.commitments = [(VARIABLE_BATCH, vcom), (QUOTIENT_BATCH, qcom)] →
              CommitsTo exCodec257 (1 : ZMod 257) alpha vcom
                (committedPolys (FftLib.ofRoots exRoots257) exSquareCircuit pre exSquareTable m VARIABLE_BATCH) →
              CommitsTo exCodec257 (1 : ZMod 257) alpha qcom m.chunks →
              B.Avoided exSquareCircuit m (readChallenges T exSquareCircuit m.sorted.length vcom [] [] qcom
                (T.key pd.common.hash pd.common.fixedCommitment)) →
              (readChallenges T exSquareCircuit m.sorted.length vcom [] [] qcom
                (T.key pd.common.hash pd.common.fixedCommitment)).y = y →
              KzgDrawsTwo C KT exCodec257 (FftLib.ofRoots exRoots257) 2 exSquareDesc exSquareCircuit pd.common o0 z y
                (proof.commitments.insert FIXED_BATCH pd.common.fixedCommitment)
                (openingState T exSquareCircuit m.sorted.length vcom [] [] qcom
                  (T.key pd.common.hash pd.common.fixedCommitment)) (evalPoly g alpha) theta theta2 →
              placeholderVerify C T (FftLib.ofRoots exRoots257) 2 true exSquareDesc exSquareCircuit pd.common proof o0 ≠
                some true := by
  obtain ⟨B, hB, h⟩ := C108_kzg2_sound_partial (dg := 2) (w := 0) exSquareSetup hperm exSquareFit exSquareDegree
    (fun h => absurd rfl h) (fun h => absurd rfl h) (fun h => absurd rfl h) (fun h => absurd rfl h) (by norm_num)
    exSquareRotations (fun h => absurd rfl h) exPairing257 (by decide) 4 1 (by norm_num)
  refine ⟨B, hB, fun m hm z hz y hy => ?_⟩
  obtain ⟨badTheta, hbg, h⟩ := h m hm z hz y hy
  obtain ⟨s1, s2, -⟩ := permPreprocess_shape exLib257_lawful (by norm_num) hperm
  rw [List.length_nil, List.length_eq_zero_iff] at s1 s2
  refine ⟨badTheta, hbg.trans ?_, fun theta htheta g hg => ?_⟩
  · simp [openedBatches, exSquareCircuit, committedPolys, s1, s2, exSquareTable, FIXED_BATCH, VARIABLE_BATCH,
      QUOTIENT_BATCH, PERMUTATION_BATCH]
    omega
  obtain ⟨badTheta2, hbt2, h⟩ := h theta htheta g hg
  refine ⟨badTheta2, hbt2, fun theta2 htheta2 q hq => ?_⟩
  obtain ⟨badTrapdoor, hbt, h⟩ := h theta2 htheta2 q hq
  refine ⟨badTrapdoor, hbt, fun alpha halpha S H KT T hash C hC pd o0 hpre proof heval vcom qcom hcoms hvcom hqcom
    hav hyy hdraw hacc => ?_⟩
  have hfv : proof.commitments.find VARIABLE_BATCH = some vcom := by rw [hcoms]; rfl
  have hfq : proof.commitments.find QUOTIENT_BATCH = some qcom := by rw [hcoms]; rfl
  have := (h alpha halpha exCodec257 exCodec257_lawful KT T hash C hC pd o0 exSquareTable hpre rfl rfl proof
    (by rw [heval]; simp [exPairing257]) (by rw [hcoms]; rfl) (by
      intro k hk hkf blob hb
      rcases (mem_openedBatches k).1 hk with rfl | rfl | ⟨h, rfl⟩ | ⟨h, rfl⟩ | rfl
      · exact absurd rfl hkf
      · obtain rfl := Option.some_inj.1 (hfv.symm.trans hb)
        exact hvcom
      · exact absurd rfl h
      · exact absurd h (by simp [exSquareCircuit])
      · obtain rfl := Option.some_inj.1 (hfq.symm.trans hb)
        exact hqcom) vcom [] [] qcom hfv (fun h => absurd rfl h) (fun h => absurd h (by simp [exSquareCircuit]))
    hfq hav hyy (by simpa [exPairing257] using hdraw) hacc).2.1
  exact C102_example.1 exSquareTable rfl rfl rfl this

/-- **C108**, a run of the prover on a table that satisfies the circuit: the proof is accepted and is of the form that
`C108_kzg2_sound_partial` asks for. -/
theorem C108_honest_example (alpha : ZMod 257) (S H : Type) (KT : KzgTranscript S (ZMod 257))
    (T : PlonkTranscript S (ZMod 257) H (List UInt8)) (hash : H) (hT : ∀ st, (T.challenge st).1 ≠ 0)
    (C : CommScheme (ZMod 257) S (List UInt8) (ZMod 257 × ZMod 257) Bool (KzgScheme (ZMod 257)))
    (hC : C = kzg2Comm (FftLib.ofRoots exRoots257) exPairing257 (batchedKzgSetup exPairing257 4 1 alpha)
      exCodec257 KT) :
    ∃ pd o0 proof m g q, placeholderPreprocess C T (FftLib.ofRoots exRoots257) 2 (2 ^ 64) exSquareDesc exSquareCircuit
        [] 3 0 hash exSquareTrue C.new = some (pd, o0) ∧
      placeholderVerify C T (FftLib.ofRoots exRoots257) 2 true exSquareDesc exSquareCircuit pd.common proof o0 =
        some true ∧
      m.Sized 2 ∧ g.length ≤ 4 ∧ q.length ≤ 4 ∧
      ValuesSized exSquareCircuit (committedPolys (FftLib.ofRoots exRoots257) exSquareCircuit pd.perm exSquareTrue m)
        proof.eval.1 ∧ proof.eval.2 = (evalPoly g alpha • (1 : ZMod 257), evalPoly q alpha • (1 : ZMod 257)) ∧
      (proof.commitments.insert FIXED_BATCH pd.common.fixedCommitment).keys = openedBatches exSquareCircuit ∧
      ∀ k ∈ openedBatches exSquareCircuit, k ≠ FIXED_BATCH → ∃ blob, proof.commitments.find k = some blob ∧
        CommitsTo exCodec257 (1 : ZMod 257) alpha blob
          (committedPolys (FftLib.ofRoots exRoots257) exSquareCircuit pd.perm exSquareTrue m k) := by
  obtain ⟨parts, badP, badT, badL, -, -, -, h⟩ := C106_kzg2_complete (mqc := 0) exSquareTrueSetup
    (by decide +kernel) (.inl rfl) exSquareFit (.inl rfl) (fun c hc => by simp [exSquareCircuit] at hc)
    exSquareTrueGates 0 (fun h => absurd rfl h) 3 (by norm_num) exSquareRotations (fun h => absurd rfl h)
  obtain ⟨pd, o0, hpre, h⟩ := h exPairing257 4 1 alpha exCodec257 KT T hash C exCodec257_lawful (by norm_num)
    (by norm_num) hC
  obtain ⟨y, hy, h⟩ := h ⟨fun h => absurd rfl h, fun h => absurd rfl h, fun h => absurd rfl h⟩
  obtain ⟨st, rfl⟩ := openingChallenge_drawn hy
  obtain ⟨proof, hprove, hv, -⟩ := h (hT st)
  obtain ⟨m, g, q, h1, h2, h2', h3, h4, h5, h6⟩ := C108_honest_prover exSquareTrueSetup (by norm_num) exSquareRotations
    (fun h => absurd rfl h) (P := exPairing257) (dk := 4) (tk := 1) (by norm_num) (by norm_num) exCodec257_lawful hC
    hpre (fun h => absurd rfl h) (fun h => absurd rfl h) hprove (by
      have hR := kzgComm_rootLaws (L := FftLib.ofRoots exRoots257) (P := exPairing257) (codec := exCodec257) KT
        (batchedKzgSetup exPairing257 4 1 alpha)
      obtain ⟨D, hD⟩ := prove_run (by rw [hC]; exact ⟨hR.apply, hR.setup⟩) hprove
      rw [hD.challenge]
      exact hT _) (fun _ _ _ _ h => absurd rfl h)
  exact ⟨pd, o0, proof, m, g, q, hpre, (hv (.inl (by simp [exSquareTrue])) true).1, h1, h2, h2', h3, h4, h5, h6⟩

end Crypto3Zk
