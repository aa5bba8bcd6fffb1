import Verif.Props.PlaceholderGatesSound
import Verif.Props.PlaceholderSound
import Verif.Props.PlaceholderPartsForgeryExample

/-!
# C66 by parts, on a concrete circuit

The circuit of `C66_parts_example`, with the permutation argument in two parts, and a table that violates a gate.
-/

set_option linter.unusedSectionVars false

namespace Crypto3Zk

theorem exFourthWrongSetup : PlaceholderSetup (FftLib.ofRoots exRoots257) 4 2 (2 ^ 64) exFourthDesc exFourthCircuit
    exPlonkOrder (exFourthTable 1 0 0 0 0 0 0 0) :=
  { exFourthSetup with
    fits := ⟨rfl, rfl, rfl, rfl, by unfold PlonkTable.Rectangular; decide, by decide⟩
    gates := by
      intro g hg
      simp only [exFourthCircuit, List.mem_singleton] at hg
      subst hg
      refine ⟨by decide, ?_⟩
      intro c hc v hv
      simp only [List.mem_singleton] at hc
      subst hc
      simp only [Expr.visitVars, List.mem_append, List.mem_singleton] at hv
      rcases hv with rfl | rfl <;> exact ⟨_, rfl, by decide⟩
    lookups := by
      refine ⟨fun g hg => ?_, fun tab htab => ?_⟩
      · simp [exFourthCircuit] at hg
      · simp [exFourthCircuit] at htab }

/-- The square of one is not zero. -/
theorem exFourthWrong_gates : ¬GatesHold (exFourthTable 1 0 0 0 0 0 0 0) exFourthCircuit.gates 3 := by
  intro h
  have := h 0 (by norm_num) _ (List.mem_cons_self ..) (by decide) _ (List.mem_cons_self ..)
  exact absurd this (by decide +kernel)

/-- **C66** by parts, on a table that violates a gate, with the permutation argument in two parts: there are sets of bad
challenges such that a prover who is committed to this table is not accepted if they are avoided, and whatever the
prover does there are challenges that avoid them. -/
theorem C66_gates_example : ∃ B : PartsBad (ZMod 257),
    (∀ {S H Com Pr Data Obj : Type} (C : CommScheme (ZMod 257) S Com Pr Data Obj)
      (T : PlonkTranscript S (ZMod 257) H Com) (hash : H) (obj o0 : Obj) (pd : PublicData (ZMod 257) H Com Data),
      placeholderPreprocess C T (FftLib.ofRoots exRoots257) 2 (2 ^ 64) exFourthDesc exFourthCircuit exPlonkOrder 3 3
        hash (exFourthTable 0 0 0 0 0 0 0 0) obj = some (pd, o0) →
      pd.perm.parts = 2 ∧
      ∀ (proof : PlaceholderProof (ZMod 257) Com Pr) (m : PartsMessages (ZMod 257)) (chunks : List (List (ZMod 257))),
        m.Sized 2 exFourthCircuit 3 2 → (∀ ch ∈ chunks, ch.length ≤ 4) →
        OpenedParts (FftLib.ofRoots exRoots257) 2 exFourthDesc exFourthCircuit pd.common pd.perm
          (exFourthTable 1 0 0 0 0 0 0 0) m chunks proof →
        ∀ (vcom pcom qcom : Com), proof.commitments.find VARIABLE_BATCH = some vcom →
          proof.commitments.find PERMUTATION_BATCH = some pcom →
          proof.commitments.find QUOTIENT_BATCH = some qcom →
          B.GatesAvoided m chunks (readPartsChallenges T exFourthCircuit 2
            (exFourthCircuit.lookups.parts 3).length m.sorted.length vcom vcom pcom qcom
            (C.setup o0 (T.key pd.common.hash pd.common.fixedCommitment) pd.common.schemeData).1) →
          placeholderVerify C T (FftLib.ofRoots exRoots257) 2 true exFourthDesc exFourthCircuit pd.common proof o0 ≠
            some true) ∧
    ∀ (m : PartsMessages (ZMod 257)) (e : EarlyChallenges (ZMod 257))
      (chunks : ZMod 257 → List (ZMod 257) → List (List (ZMod 257))), (∀ g as, (chunks g as).length ≤ 5) →
      ∃ (g : ZMod 257) (as : List (ZMod 257)) (y : ZMod 257), as.length = 8 ∧
        B.GatesAvoided m (chunks g as) ⟨{ e with gateTheta := g }, as, y⟩ := by
  obtain ⟨pre, hperm, -⟩ := C65_preprocessor_succeeds (mqc := 3) exFourthSetup (by decide +kernel)
    (.inr (by decide +kernel)) 3
  obtain ⟨s1, s2, s3, s4, q1, q2, q3, s8, s9, s10, s11, s12, s13⟩ := permPreprocess_shape exLib257_lawful
    (by norm_num) hperm
  have hparts : pre.parts = 2 := Option.some_inj.1 (s13.symm.trans (by decide +kernel))
  obtain ⟨B, hB, h⟩ := C66_sound_by_parts_partial (dg := 2) exFourthWrongSetup hperm
    ⟨by
      intro g hg e he
      simp only [exFourthCircuit, List.mem_singleton] at hg
      subst hg
      simp only [List.mem_singleton] at he
      subst he
      decide +kernel, fun g hg => by simp [exFourthCircuit] at hg, by decide +kernel⟩
    (by
      intro g hg e he
      simp only [exFourthCircuit, List.mem_singleton] at hg
      subst hg
      simp only [List.mem_singleton] at he
      subst he
      decide +kernel) (fun h => absurd rfl h) 0
  refine ⟨B, ?_, ?_⟩
  · intro S H Com Pr Data Obj C T hash obj o0 pd hpre
    obtain rfl : pre = pd.perm := Option.some_inj.1 (hperm.symm.trans (preprocess_facts hpre).perm)
    refine ⟨hparts, ?_⟩
    intro proof m chunks hm hch ho vcom pcom qcom h1 h2 h3 hav hacc
    exact exFourthWrong_gates (h C T hash obj o0 pd _ hpre rfl rfl proof m chunks (by rw [hparts]; exact hm) hch ho vcom
      vcom pcom qcom h1 (fun h => absurd rfl h) (fun _ => h2) h3 _ rfl (by rw [hparts]; exact hav) hacc).1
  · intro m e chunks hq
    have hcard : Fintype.card (ZMod 257) = 257 := ZMod.card 257
    have pick : ∀ s : Finset (ZMod 257), s.card < 257 → ∃ a, a ∉ s := by
      intro s hs
      by_contra hcon
      push Not at hcon
      have := Finset.card_le_card (show Finset.univ ⊆ s from fun a _ => hcon a)
      rw [Finset.card_univ, hcard] at this
      omega
    obtain ⟨g, hg⟩ := pick B.gateTheta (lt_of_le_of_lt hB.gateTheta (by decide +kernel))
    obtain ⟨as, h8, has⟩ := pick_list (B.alpha m { e with gateTheta := g }) (hB.alpha _ _) (by rw [hcard]; norm_num) 8
    obtain ⟨y, hy⟩ := pick (B.y m { e with gateTheta := g } as (chunks g as)) (by
      refine lt_of_le_of_lt (hB.y _ _ _ _) (max_lt (by decide +kernel) ?_)
      have := hq g as
      omega)
    exact ⟨g, as, y, h8, hg, has, hy⟩

end Crypto3Zk
