import Verif.Props.PlaceholderExample
import Verif.Props.PlaceholderSound

/-!
# C66 on a concrete circuit

The circuit of `C65_example`, with a gate, copy constraints and a lookup, over a field with 257 elements, and a
table that does not satisfy it.
-/

set_option linter.unusedSectionVars false

namespace Crypto3Zk

/-- The gate holds in each row (`4 = 2 ^ 2`, `25 = 5 ^ 2`), but `5` is neither a copy of `4` nor in the lookup
table. -/
def exPlonkWrong : PlonkTable (ZMod 257) :=
  ⟨[[2, 5, 9, 1], [4, 25, 7, 3]], [[16, 0, 0, 0]], [[0, 2, 4, 0]],
    [[1, 1, 0, 0], [1, 1, 0, 0], [0, 1, 1, 0]]⟩

theorem exPlonkWrongSetup : PlaceholderSetup (FftLib.ofRoots exRoots257) 4 2 (2 ^ 64) exPlonkDesc exPlonkCircuit
    exPlonkOrder exPlonkWrong where
  lib := exLib257_lawful
  small := by norm_num
  rows := rfl
  usable := by decide
  used := by decide
  width := by decide
  rows32 := by norm_num
  fits := ⟨rfl, rfl, rfl, rfl, by unfold PlonkTable.Rectangular; decide, by decide⟩
  copies := by
    intro c hc v hv
    simp only [exPlonkCircuit, List.mem_cons, List.not_mem_nil, or_false] at hc
    rcases hc with rfl | rfl <;> rcases hv with rfl | rfl <;>
      exact ⟨by simp [TableDesc.HasColumn, exPlonkDesc], by decide, by decide, by decide⟩
  nodup := by decide
  members := by
    intro v
    constructor
    · intro hv
      simp only [exPlonkOrder, List.mem_cons, List.not_mem_nil, or_false] at hv
      rcases hv with rfl | rfl | rfl <;> decide
    · intro hv
      simp [permutedVars, exPlonkCircuit] at hv
      simp [exPlonkOrder]
      tauto
  gates := by
    intro g hg
    simp only [exPlonkCircuit, List.mem_singleton] at hg
    subst hg
    refine ⟨by decide, ?_⟩
    intro c hc v hv
    simp only [List.mem_singleton] at hc
    subst hc
    simp only [Expr.visitVars, List.mem_append, List.mem_singleton] at hv
    rcases hv with rfl | rfl <;> exact ⟨_, rfl, by decide⟩
  lookups := by
    refine ⟨fun g hg => ?_, fun tab htab => ?_⟩
    · simp only [exPlonkCircuit, List.mem_singleton] at hg
      subst hg
      refine ⟨by decide, fun c hc e he v hv => ?_⟩
      simp only [List.mem_singleton] at hc
      subst hc
      simp only [List.mem_singleton] at he
      subst he
      simp only [Expr.visitVars, List.mem_singleton] at hv
      subst hv
      exact ⟨_, rfl, by decide⟩
    · simp only [exPlonkCircuit, List.mem_singleton] at htab
      subst htab
      refine ⟨by decide, fun o ho => ?_⟩
      simp only [List.mem_singleton] at ho
      subst ho
      refine ⟨rfl, fun v hv => ?_⟩
      simp only [List.mem_singleton] at hv
      subst hv
      decide
  degree := by
    have : exPlonkCircuit.maxDegree = 2 := by decide +kernel
    rw [this]
    norm_num
  fuel := le_rfl

theorem exPlonkWrong_copies : ¬CopiesHold exPlonkDesc exPlonkCircuit.copies exPlonkWrong.cellAt := by
  intro h
  exact absurd (h _ (List.mem_cons_self ..) (1, 0) (0, 1) rfl rfl) (by decide +kernel)

theorem exPlonkCheckable : LookupsCheckable exPlonkWrong exPlonkCircuit.lookups 3 2 where
  wellFormed := exPlonkLookups.wellFormed
  tags := exPlonkLookups.tags
  options := exPlonkLookups.laidOut.some
  columns := exPlonkLookups.columns

theorem exPlonkDelta : DeltaSeparates 2 3 (3 : ZMod 257) := by
  refine ⟨by decide, fun m h0 h1 => ?_⟩
  interval_cases m <;> decide +kernel

/-- **C66** on a table that does not satisfy the circuit: there are sets of bad challenges such that a prover who
is committed to this table is not accepted if they are avoided, and whatever the prover does there are challenges
that avoid them. -/
theorem C66_example : ∃ B : BadChallenges (ZMod 257),
    (∀ {S H Com Pr Data Obj : Type} (C : CommScheme (ZMod 257) S Com Pr Data Obj)
      (T : PlonkTranscript S (ZMod 257) H Com) (hash : H) (obj o0 : Obj) (pd : PublicData (ZMod 257) H Com Data),
      placeholderPreprocess C T (FftLib.ofRoots exRoots257) 2 (2 ^ 64) exPlonkDesc exPlonkCircuit exPlonkOrder 3 0
        hash exPlonkTable obj = some (pd, o0) →
      ∀ (proof : PlaceholderProof (ZMod 257) Com Pr) (m : ProverMessages (ZMod 257)), m.Sized 2 →
        OpenedTruly (FftLib.ofRoots exRoots257) 2 exPlonkDesc exPlonkCircuit pd.common pd.perm exPlonkWrong m
          proof →
        ∀ (vcom lcom pcom qcom : Com), proof.commitments.find VARIABLE_BATCH = some vcom →
          proof.commitments.find LOOKUP_BATCH = some lcom →
          proof.commitments.find PERMUTATION_BATCH = some pcom →
          proof.commitments.find QUOTIENT_BATCH = some qcom →
          B.Avoided exPlonkCircuit m (readChallenges T exPlonkCircuit m.sorted.length vcom lcom pcom qcom
            (C.setup o0 (T.key pd.common.hash pd.common.fixedCommitment) pd.common.schemeData).1) →
          placeholderVerify C T (FftLib.ofRoots exRoots257) 2 true exPlonkDesc exPlonkCircuit pd.common proof o0 ≠
            some true) ∧
    ∀ (k : Nat) (V : ZMod 257 → ZMod 257 → List (ZMod 257))
      (sorted : ZMod 257 → ZMod 257 → ZMod 257 → List (List (ZMod 257)))
      (lookupV : ZMod 257 → ZMod 257 → ZMod 257 → ZMod 257 → ZMod 257 → List (ZMod 257) → List (ZMod 257))
      (chunks : ZMod 257 → ZMod 257 → ZMod 257 → ZMod 257 → ZMod 257 → List (ZMod 257) → ZMod 257 →
        List (ZMod 257) → List (List (ZMod 257))),
      (∀ b g th lb lg la gt as, (chunks b g th lb lg la gt as).length ≤ 5) →
      ∃ x : Challenges (ZMod 257), x.lookupAlphas.length = k ∧ x.alphas.length = 8 ∧
        B.Avoided exPlonkCircuit ⟨V x.beta x.gamma, sorted x.beta x.gamma x.theta,
          lookupV x.beta x.gamma x.theta x.lookupBeta x.lookupGamma x.lookupAlphas,
          chunks x.beta x.gamma x.theta x.lookupBeta x.lookupGamma x.lookupAlphas x.gateTheta x.alphas⟩ x := by
  obtain ⟨pre, hperm, -⟩ := C65_preprocessor_succeeds (mqc := 0) exPlonkSetup (by decide +kernel) (.inl rfl) 3
  obtain ⟨B, hB, h⟩ := C66_soundness_no_limit_partial (dg := 2) exPlonkWrongSetup hperm exPlonkDegrees
    (by
      intro g hg e he
      simp only [exPlonkCircuit, List.mem_singleton] at hg
      subst hg
      simp only [List.mem_singleton] at he
      subst he
      decide +kernel)
    (fun _ => exPlonkDelta) (fun _ => exPlonkCheckable)
  refine ⟨B, ?_, ?_⟩
  · intro S H Com Pr Data Obj C T hash obj o0 pd hpre proof m hm ho vcom lcom pcom qcom h1 h2 h3 h4 hav hacc
    obtain rfl : pre = pd.perm := Option.some_inj.1 (hperm.symm.trans (preprocess_facts hpre).perm)
    exact exPlonkWrong_copies (h C T hash obj o0 pd exPlonkTable hpre rfl rfl proof m hm ho vcom lcom pcom qcom h1
      (fun _ => h2) (fun _ => h3) h4 hav hacc).1
  · intro k V sorted lookupV chunks hq
    have hc : Fintype.card (ZMod 257) = 257 := ZMod.card 257
    refine C66_avoidable hB k 5 V sorted lookupV chunks hq ?_ ?_ ?_ ?_ ?_ ?_ ?_ <;> rw [hc] <;> decide +kernel

end Crypto3Zk
