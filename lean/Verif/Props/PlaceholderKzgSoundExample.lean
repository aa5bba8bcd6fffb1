import Verif.Props.PlaceholderKzgSound
import Verif.Props.PlaceholderKzgForgery

/-!
# C102: examples for the soundness of placeholder over KZG
-/

set_option linter.unusedSectionVars false

namespace Crypto3Zk

theorem exSquareDegree : ∀ g ∈ exSquareCircuit.gates, ∀ e ∈ g.constraints, e.degree ≤ 2 := by
  intro g hg e he
  simp only [exSquareCircuit, List.mem_singleton] at hg
  subst hg
  simp only [List.mem_singleton] at he
  subst he
  decide +kernel

theorem exSquareFit : DegreesFit exSquareCircuit where
  gates := by decide +kernel
  inputs := by decide +kernel
  total := by decide +kernel

/-- **C102** on the table of `C102_example`, whose public input is not a square: with as many values as polynomials,
no proof of a prover that combines elements of the key is accepted, for all but few challenges and trapdoors. -/
theorem C102_sound_example (pre : PermData (ZMod 257))
    (hperm : permPreprocess (FftLib.ofRoots exRoots257) 2 (2 ^ 64) exSquareDesc [] [] 3 0 = some pre) :
    ∃ B : BadChallenges (ZMod 257), B.Small exSquareCircuit 2 3 0 2 0 ∧
      ∀ m : ProverMessages (ZMod 257), m.Sized 2 → ∀ z : EvalStorage (ZMod 257),
      ValuesSized exSquareCircuit (committedPolys (FftLib.ofRoots exRoots257) exSquareCircuit pre exSquareTable m) z →
      ∀ y, y ≠ 0 → ∃ badGamma : Finset (ZMod 257), badGamma.card ≤ 4 + m.chunks.length ∧
        ∀ gamma ∉ badGamma, ∀ q : List (ZMod 257), q.length ≤ 4 → ∃ badTrapdoor : Finset (ZMod 257),
          badTrapdoor.card ≤ 7 ∧ ∀ alpha ∉ badTrapdoor,
          ∀ {S H : Type} (KT : KzgTranscript S (ZMod 257)) (T : PlonkTranscript S (ZMod 257) H (List UInt8)) (hash : H)
            (C : CommScheme (ZMod 257) S (List UInt8) (ZMod 257) Bool (KzgScheme (ZMod 257))),
            C = kzgComm (FftLib.ofRoots exRoots257) exPairing257 (batchedKzgSetup exPairing257 4 4 alpha)
              exCodec257 KT →
            ∀ pd o0, placeholderPreprocess C T (FftLib.ofRoots exRoots257) 2 (2 ^ 64) exSquareDesc exSquareCircuit []
              3 0 hash exSquareTable C.new = some (pd, o0) →
            ∀ (proof : PlaceholderProof (ZMod 257) (List UInt8) (ZMod 257)), proof.eval = (z, evalPoly q alpha) →
              ∀ vcom qcom, proof.commitments = [(VARIABLE_BATCH, vcom), (QUOTIENT_BATCH, qcom)] →
              CommitsTo exCodec257 (1 : ZMod 257) alpha vcom
                (committedPolys (FftLib.ofRoots exRoots257) exSquareCircuit pre exSquareTable m VARIABLE_BATCH) →
              CommitsTo exCodec257 (1 : ZMod 257) alpha qcom m.chunks →
              B.Avoided exSquareCircuit m (readChallenges T exSquareCircuit m.sorted.length vcom [] [] qcom
                (T.key pd.common.hash pd.common.fixedCommitment)) →
              (readChallenges T exSquareCircuit m.sorted.length vcom [] [] qcom
                (T.key pd.common.hash pd.common.fixedCommitment)).y = y →
              KzgDraws C KT (FftLib.ofRoots exRoots257) 2 exSquareDesc exSquareCircuit pd.common o0 z y
                (proof.commitments.insert FIXED_BATCH pd.common.fixedCommitment)
                (openingState T exSquareCircuit m.sorted.length vcom [] [] qcom
                  (T.key pd.common.hash pd.common.fixedCommitment)) gamma →
              placeholderVerify C T (FftLib.ofRoots exRoots257) 2 true exSquareDesc exSquareCircuit pd.common proof o0 ≠
                some true := by
  obtain ⟨B, hB, h⟩ := C102_kzg_sound_partial (dg := 2) (w := 0) exSquareSetup hperm exSquareFit exSquareDegree
    (fun h => absurd rfl h) (fun h => absurd rfl h) (fun h => absurd rfl h) (fun h => absurd rfl h) (by norm_num)
    exSquareRotations (fun h => absurd rfl h) exPairing257 (by decide) 4 4 (by norm_num)
  refine ⟨B, hB, fun m hm z hz y hy => ?_⟩
  obtain ⟨badGamma, hbg, h⟩ := h m hm z hz y hy
  obtain ⟨s1, s2, -⟩ := permPreprocess_shape exLib257_lawful (by norm_num) hperm
  rw [List.length_nil, List.length_eq_zero_iff] at s1 s2
  refine ⟨badGamma, hbg.trans ?_, fun gamma hgamma q hq => ?_⟩
  · simp [openedBatches, exSquareCircuit, committedPolys, s1, s2, exSquareTable, FIXED_BATCH, VARIABLE_BATCH,
      QUOTIENT_BATCH, PERMUTATION_BATCH]
    omega
  obtain ⟨badTrapdoor, hbt, h⟩ := h gamma hgamma q hq
  refine ⟨badTrapdoor, hbt, fun alpha halpha S H KT T hash C hC pd o0 hpre proof heval vcom qcom hcoms hvcom hqcom
    hav hyy hdraw hacc => ?_⟩
  have hfv : proof.commitments.find VARIABLE_BATCH = some vcom := by rw [hcoms]; rfl
  have hfq : proof.commitments.find QUOTIENT_BATCH = some qcom := by rw [hcoms]; rfl
  have := (h alpha halpha exCodec257 exCodec257_lawful KT T hash C hC pd o0 exSquareTable hpre rfl rfl proof
    (by rw [heval]; simp [exPairing257]) (by rw [hcoms]; rfl) (by
      intro k hk hkf blob hb
      rcases (mem_openedBatches k).1 hk with rfl | rfl | ⟨h, rfl⟩ | ⟨h, rfl⟩ | rfl
      · exact absurd rfl hkf
      · obtain rfl := Option.some_inj.1 (hfv.symm.trans hb)
        exact hvcom
      · exact absurd rfl h
      · exact absurd h (by simp [exSquareCircuit])
      · obtain rfl := Option.some_inj.1 (hfq.symm.trans hb)
        exact hqcom) vcom [] [] qcom hfv (fun h => absurd rfl h) (fun h => absurd h (by simp [exSquareCircuit]))
    hfq hav hyy hdraw hacc).2.1
  exact C102_example.1 exSquareTable rfl rfl rfl this

/-- the public input `4` and the witness `2` -/
def exSquareTrue : PlonkTable (ZMod 257) := ⟨[[2, 0, 0, 0]], [[4, 0, 0, 0]], [], [[1, 0, 0, 0]]⟩

theorem exSquareTrueSetup : PlaceholderSetup (FftLib.ofRoots exRoots257) 4 2 (2 ^ 64) exSquareDesc exSquareCircuit
    [] exSquareTrue :=
  { exSquareSetup with
    usable := by decide
    used := by decide
    fits := ⟨rfl, rfl, rfl, rfl, by unfold PlonkTable.Rectangular; decide, by decide⟩
    gates := by
      intro g hg
      simp only [exSquareCircuit, List.mem_singleton] at hg
      subst hg
      refine ⟨by decide, ?_⟩
      intro c hc v hv
      simp only [List.mem_singleton] at hc
      subst hc
      simp only [Expr.visitVars, List.mem_append, List.mem_singleton] at hv
      rcases hv with rfl | rfl <;> exact ⟨_, rfl, by decide⟩
    lookups := by
      refine ⟨fun g hg => ?_, fun tab htab => ?_⟩
      · simp [exSquareCircuit] at hg
      · simp [exSquareCircuit] at htab }

theorem exSquareTrueGates : GatesHold exSquareTrue exSquareCircuit.gates 3 := by
  intro j hj g hg hs e he
  simp only [exSquareCircuit, List.mem_singleton] at hg
  subst hg
  simp only [List.mem_singleton] at he
  subst he
  interval_cases j <;> decide +kernel

/-- **C102**, a run of the prover on a table that satisfies the circuit: the proof is accepted and is of the form that
`C102_kzg_sound_partial` asks for. -/
theorem C102_honest_example (alpha : ZMod 257) (S H : Type) (KT : KzgTranscript S (ZMod 257))
    (T : PlonkTranscript S (ZMod 257) H (List UInt8)) (hash : H) (hT : ∀ st, (T.challenge st).1 ≠ 0)
    (C : CommScheme (ZMod 257) S (List UInt8) (ZMod 257) Bool (KzgScheme (ZMod 257)))
    (hC : C = kzgComm (FftLib.ofRoots exRoots257) exPairing257 (batchedKzgSetup exPairing257 4 4 alpha)
      exCodec257 KT) :
    ∃ pd o0 proof m q, placeholderPreprocess C T (FftLib.ofRoots exRoots257) 2 (2 ^ 64) exSquareDesc exSquareCircuit
        [] 3 0 hash exSquareTrue C.new = some (pd, o0) ∧
      placeholderVerify C T (FftLib.ofRoots exRoots257) 2 true exSquareDesc exSquareCircuit pd.common proof o0 =
        some true ∧
      m.Sized 2 ∧ q.length ≤ 4 ∧
      ValuesSized exSquareCircuit (committedPolys (FftLib.ofRoots exRoots257) exSquareCircuit pd.perm exSquareTrue m)
        proof.eval.1 ∧ proof.eval.2 = evalPoly q alpha • (1 : ZMod 257) ∧
      (proof.commitments.insert FIXED_BATCH pd.common.fixedCommitment).keys = openedBatches exSquareCircuit ∧
      ∀ k ∈ openedBatches exSquareCircuit, k ≠ FIXED_BATCH → ∃ blob, proof.commitments.find k = some blob ∧
        CommitsTo exCodec257 (1 : ZMod 257) alpha blob
          (committedPolys (FftLib.ofRoots exRoots257) exSquareCircuit pd.perm exSquareTrue m k) := by
  obtain ⟨parts, badP, badT, badL, -, -, -, h⟩ := C100_kzg_complete (mqc := 0) exSquareTrueSetup
    (by decide +kernel) (.inl rfl) exSquareFit (.inl rfl) (fun c hc => by simp [exSquareCircuit] at hc)
    exSquareTrueGates 0 (fun h => absurd rfl h) 3 (by norm_num) exSquareRotations (fun h => absurd rfl h)
  obtain ⟨pd, o0, hpre, h⟩ := h exPairing257 4 4 alpha exCodec257 KT T hash C exCodec257_lawful (by norm_num)
    (by norm_num) hC
  obtain ⟨y, hy, h⟩ := h ⟨fun h => absurd rfl h, fun h => absurd rfl h, fun h => absurd rfl h⟩
  obtain ⟨st, rfl⟩ := openingChallenge_drawn hy
  obtain ⟨proof, hprove, hv⟩ := h (hT st)
  obtain ⟨m, q, h1, h2, h3, h4, h5, h6⟩ := C102_honest_prover exSquareTrueSetup (by norm_num) exSquareRotations
    (fun h => absurd rfl h) (P := exPairing257) (dk := 4) (tk := 4) (by norm_num) (by norm_num) exCodec257_lawful hC
    hpre (fun h => absurd rfl h) (fun h => absurd rfl h) hprove (by
      obtain ⟨D, hD⟩ := prove_run (by rw [hC]; exact kzgComm_rootLaws KT _) hprove
      rw [hD.challenge]
      exact hT _) (fun _ _ _ _ h => absurd rfl h)
  exact ⟨pd, o0, proof, m, q, hpre, (hv true).1, h1, h2, h3, h4, h5, h6⟩

end Crypto3Zk
