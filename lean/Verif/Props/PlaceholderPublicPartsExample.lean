import Verif.Props.PlaceholderPublicParts
import Verif.Props.PlaceholderKzgGatesExample

/-!
# C103 by parts, on a concrete circuit

The circuit of `C66_parts_example`, with the permutation argument in two parts, and a table with the public input `3`.
-/

set_option linter.unusedSectionVars false

namespace Crypto3Zk

/-- **C103** by parts: with the permutation argument in two parts, and with a public input chosen before the challenge, an
accepted proof for the table says that the public input is `3` (although nothing is known about the copy
constraints). -/
theorem C103_parts_example (pre : PermData (ZMod 257))
    (hperm : permPreprocess (FftLib.ofRoots exRoots257) 2 (2 ^ 64) exFourthDesc exFourthCircuit.copies exPlonkOrder 3
      3 = some pre) (a : ZMod 257) :
    pre.parts = 2 ∧ ∃ B : PartsBad (ZMod 257), B.Small exFourthCircuit 2 3 3 2 0 ∧
      ∃ badY : Finset (ZMod 257), badY.card ≤ 3 ∧
      ∀ {S H Com Pr Data Obj : Type} (C : CommScheme (ZMod 257) S Com Pr Data Obj)
        (T : PlonkTranscript S (ZMod 257) H Com) (hash : H) (obj o0 : Obj) (pd : PublicData (ZMod 257) H Com Data),
        placeholderPreprocess C T (FftLib.ofRoots exRoots257) 2 (2 ^ 64) exFourthDesc exFourthCircuit exPlonkOrder 3 3
          hash (exFourthTable 0 0 0 0 0 0 0 0) obj = some (pd, o0) →
        ∀ (proof : PlaceholderProof (ZMod 257) Com Pr) (m : PartsMessages (ZMod 257))
          (chunks : List (List (ZMod 257))), m.Sized 2 exFourthCircuit 3 2 → (∀ ch ∈ chunks, ch.length ≤ 4) →
          OpenedParts (FftLib.ofRoots exRoots257) 2 exFourthDesc exFourthCircuit pd.common pre
            (exFourthTable 0 0 0 0 0 0 0 0) m chunks proof →
          ∀ vcom pcom qcom : Com, proof.commitments.find VARIABLE_BATCH = some vcom →
            proof.commitments.find PERMUTATION_BATCH = some pcom →
            proof.commitments.find QUOTIENT_BATCH = some qcom →
            ∀ x, x = readPartsChallenges T exFourthCircuit 2 (exFourthCircuit.lookups.parts 3).length m.sorted.length
              vcom vcom pcom qcom
              (C.setup o0 (T.key pd.common.hash pd.common.fixedCommitment) pd.common.schemeData).1 →
            B.GatesAvoided m chunks x → x.y ∉ badY →
            placeholderVerifyPublic C T (FftLib.ofRoots exRoots257) 2 true exFourthDesc exFourthCircuit pd.common proof
              o0 [[a]] = some true → a = 3 := by
  obtain ⟨s1, s2, -, -, -, -, -, -, -, -, -, -, s13⟩ := permPreprocess_shape exLib257_lawful (by norm_num) hperm
  have hparts : pre.parts = 2 := Option.some_inj.1 (s13.symm.trans (by decide +kernel))
  refine ⟨hparts, ?_⟩
  obtain ⟨B, hB, h⟩ := C103_statement_by_parts_partial (dg := 2) exFourthSetup hperm exFourthFit exFourthDegree
    (fun h => absurd rfl h) 0 (fun i r hr => (exFourthUsed _ r hr).ge)
  rw [hparts] at h
  obtain ⟨badY, hbY, h⟩ := h [[a]] (by
    intro i xs hi
    obtain rfl : i = 0 := by
      have := (List.getElem?_eq_some_iff.1 hi).1
      simpa using this
    simp only [List.getElem?_cons_zero, Option.some.injEq] at hi
    subst hi
    simp [publicSize, exFourthCircuit])
  refine ⟨B, hB, badY, hbY, ?_⟩
  intro S H Com Pr Data Obj C T hash obj o0 pd hpre proof m chunks hm hch ho vcom pcom qcom hvc hpc hqc x hx hav hy hacc
  obtain ⟨-, -, -, hpub⟩ := h C T hash obj o0 pd _ hpre rfl rfl proof m chunks hm hch ho vcom vcom pcom qcom hvc
    (fun h => absurd rfl h) (fun _ => hpc) hqc x hx hav hy hacc
  obtain ⟨col, hcol, hv⟩ := hpub 0 [a] rfl
  obtain rfl : [3, 0, 0, 0] = col := Option.some_inj.1 hcol
  have h0 := hv 0 (by norm_num)
  simp [publicSize, exFourthCircuit] at h0
  exact h0.symm

end Crypto3Zk
