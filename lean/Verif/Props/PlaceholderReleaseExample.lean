import Verif.Props.PlaceholderExample
import Verif.Props.PlaceholderRelease

/-!
# C66 and C38 without assertions, on a concrete circuit

The circuit of `C65_example`, which can be satisfied with the public input `16` only.
-/

set_option linter.unusedSectionVars false

namespace Crypto3Zk

/-- The gate holds in each row, but nothing else does. -/
def exPlonkForged : PlonkTable (ZMod 257) :=
  ⟨[[5, 6, 0, 0], [25, 36, 0, 0]], [[0, 0, 0, 0]], [[0, 2, 4, 0]],
    [[1, 1, 0, 0], [1, 1, 0, 0], [0, 1, 1, 0]]⟩

theorem exPlonkForgedSetup : PlaceholderSetup (FftLib.ofRoots exRoots257) 4 2 (2 ^ 64) exPlonkDesc exPlonkCircuit
    exPlonkOrder exPlonkForged :=
  { exPlonkSetup with
    fits := ⟨rfl, rfl, rfl, rfl, by unfold PlonkTable.Rectangular; decide, by decide⟩
    gates := by
      intro g hg
      simp only [exPlonkCircuit, List.mem_singleton] at hg
      subst hg
      refine ⟨by decide, ?_⟩
      intro c hc v hv
      simp only [List.mem_singleton] at hc
      subst hc
      simp only [Expr.visitVars, List.mem_append, List.mem_singleton] at hv
      rcases hv with rfl | rfl <;> exact ⟨_, rfl, by decide⟩
    lookups := by
      refine ⟨fun g hg => ?_, fun tab htab => ?_⟩
      · simp only [exPlonkCircuit, List.mem_singleton] at hg
        subst hg
        refine ⟨by decide, fun c hc e he v hv => ?_⟩
        simp only [List.mem_singleton] at hc
        subst hc
        simp only [List.mem_singleton] at he
        subst he
        simp only [Expr.visitVars, List.mem_singleton] at hv
        subst hv
        exact ⟨_, rfl, by decide⟩
      · simp only [exPlonkCircuit, List.mem_singleton] at htab
        subst htab
        refine ⟨by decide, fun o ho => ?_⟩
        simp only [List.mem_singleton] at ho
        subst ho
        refine ⟨rfl, fun v hv => ?_⟩
        simp only [List.mem_singleton] at hv
        subst hv
        decide }

theorem exPlonkForgedGates : GatesHold exPlonkForged exPlonkCircuit.gates 3 := by
  intro j hj g hg hs c hc
  simp only [exPlonkCircuit, List.mem_singleton] at hg
  subst hg
  simp only [List.mem_singleton] at hc
  subst hc
  interval_cases j
  · decide +kernel
  · decide +kernel
  · exact absurd rfl hs

/-- Every table that satisfies the circuit has the public input `16`. -/
theorem exPlonk_unique (a0 a1 a2 a3 b0 b1 b2 b3 p0 p1 p2 p3 : ZMod 257) (t : PlonkTable (ZMod 257))
    (ht : t = ⟨[[a0, a1, a2, a3], [b0, b1, b2, b3]], [[p0, p1, p2, p3]], [[0, 2, 4, 0]],
      [[1, 1, 0, 0], [1, 1, 0, 0], [0, 1, 1, 0]]⟩)
    (hc : CopiesHold exPlonkDesc exPlonkCircuit.copies t.cellAt) (hg : GatesHold t exPlonkCircuit.gates 3)
    (hl : LookupsHold t exPlonkCircuit.lookups 3) : p0 = 16 := by
  have c1 : b0 = a1 := by
    subst ht
    exact hc _ (List.mem_cons_self ..) (1, 0) (0, 1) rfl rfl
  have c2 : b1 = p0 := by
    subst ht
    exact hc _ (List.mem_cons_of_mem _ (List.mem_cons_self ..)) (1, 1) (2, 0) rfl rfl
  have cell : ∀ j < 2, t.cell j ⟨0, 0, true, .witness⟩ = some ([a0, a1].getD j 0) ∧
      t.cell j ⟨1, 0, true, .witness⟩ = some ([b0, b1].getD j 0) := by
    intro j hj
    subst ht
    have hr : rotatedRow 4 j 0 = some j := by interval_cases j <;> decide +kernel
    unfold PlonkTable.cell
    simp only [PlonkTable.columnsOf, PlonkTable.rowsAmount, Option.bind_eq_bind, Option.bind_some]
    constructor
    · refine bind_step (a := [a0, a1, a2, a3]) rfl (bind_step hr ?_)
      interval_cases j <;> rfl
    · refine bind_step (a := [b0, b1, b2, b3]) rfl (bind_step hr ?_)
      interval_cases j <;> rfl
  have g : ∀ j < 2, [a0, a1].getD j 0 ^ 2 - [b0, b1].getD j 0 = 0 := by
    intro j hj
    have := hg j (by omega) _ (List.mem_cons_self ..) (by subst ht; interval_cases j <;> exact one_ne_zero) _
      (List.mem_cons_self ..)
    simpa [evaluateAtRow, Expr.evalM, (cell j hj).1, (cell j hj).2] using this
  have l : ∀ j < 2, [a0, a1].getD j 0 = 2 ∨ [a0, a1].getD j 0 = 4 := by
    intro j hj
    obtain ⟨k, tab, hk, -, o, ho, i, hi, hs, h⟩ := hl j (by omega) _ (List.mem_cons_self ..)
      (by subst ht; interval_cases j <;> exact one_ne_zero) _ (List.mem_cons_self ..)
    obtain rfl := List.mem_singleton.1 (List.mem_of_getElem? hk)
    obtain rfl := List.mem_singleton.1 ho
    simp only [List.map_cons, List.map_nil, evaluateAtRow, Expr.evalM, List.foldlM_cons, List.foldlM_nil,
      (cell j hj).1, optionRow] at h
    simp only [Option.pure_def, Option.bind_eq_bind, Option.bind_some, one_mul, List.cons.injEq, Option.some.injEq,
      and_true] at h
    rw [h]
    subst ht
    interval_cases i
    · exact absurd rfl hs
    · exact .inl rfl
    · exact .inr rfl
  have g0 : a0 ^ 2 - b0 = 0 := g 0 (by norm_num)
  have g1 : a1 ^ 2 - b1 = 0 := g 1 (by norm_num)
  have l0 : a0 = 2 ∨ a0 = 4 := l 0 (by norm_num)
  have l1 : a1 = 2 ∨ a1 = 4 := l 1 (by norm_num)
  have e1 : a1 = a0 ^ 2 := by linear_combination -g0 - c1
  have e2 : p0 = a1 ^ 2 := by linear_combination -g1 - c2
  rcases l0 with rfl | rfl
  · rw [e2, e1]; decide
  · exfalso
    rcases l1 with h | h <;> rw [h] at e1 <;> exact absurd e1 (by decide)

/-- FINDING (C66, C38): a proof that is accepted without assertions for every public input, although the circuit
can only be satisfied with one. The keys are those of the honest table. -/
theorem C66_release_example : ∃ (T : PlonkTranscript Nat (ZMod 257) Unit (List (List (ZMod 257))))
    (C : CommScheme (ZMod 257) Nat _ (FriProof (ZMod 257) _ _) _ _), C = lpcComm (FftLib.ofRoots exRoots257)
      (listMerkle (ZMod 257)) exPlonkFri exPlonkParams true 1 0 ∧
    ∃ pd o0 proof,
      placeholderPreprocess C T (FftLib.ofRoots exRoots257) 2 (2 ^ 64) exPlonkDesc exPlonkCircuit
        exPlonkOrder 3 0 () exPlonkTable LpcScheme.new = some (pd, o0) ∧
      ∀ x, placeholderVerifyPublic C T (FftLib.ofRoots exRoots257) 2 false exPlonkDesc exPlonkCircuit pd.common
        proof o0 [[x]] = some true := by
  have hc : Fintype.card (ZMod 257) = 257 := ZMod.card 257
  let T : PlonkTranscript Nat (ZMod 257) Unit (List (List (ZMod 257))) :=
    ⟨0, fun _ s => s, fun _ s => s, fun k => (5, k + 1)⟩
  have hS := exPlonkForgedSetup
  have hprm := exPlonkLpc
  have hsteps : checkStepList exPlonkParams.stepList exPlonkParams.r = true := by decide +kernel
  obtain ⟨s0, hs0, hs1⟩ := first_step hprm hsteps
  obtain ⟨pre, hperm, hsome⟩ := C65_preprocessor_succeeds (mqc := 0) hS (by decide +kernel) (.inl rfl) 3
  have hlaws := hasLaws_lpc (L := FftLib.ofRoots exRoots257) (n := 2) 3 (by norm_num)
  have hmax : 2 ^ 2 ≤ exPlonkParams.maxDegree + 1 := by decide
  obtain ⟨pd, o0, -, hpre⟩ := hsome (lpcComm (FftLib.ofRoots exRoots257)
      (listMerkle (ZMod 257)) exPlonkFri exPlonkParams true 1 0) T ()
    (lpcComm_totalSetup hS.lib _ _ hprm hs0 hs1 true 1 0) hlaws hmax
  have hout : ∀ k, ((FftLib.ofRoots exRoots257).domain 3).elem k ≠ 5 := by
    intro k hk
    have := exPlonkDomain_mem k
    rw [hk] at this
    exact absurd this (by decide +kernel)
  have hone : permutationParts exPlonkOrder.length 0 = some 1 := by decide
  have hparts : exPlonkCircuit.lookups.parts 0 =
      [exPlonkCircuit.lookups.inputCount + exPlonkCircuit.lookups.optionCount] := by decide +kernel
  obtain ⟨st, h⟩ := C66_release_forgery hS exPlonkDegrees (by norm_num) (fun _ => hone)
    (fun _ => ⟨hparts, by decide⟩) exPlonkForgedGates
    (lpcComm_total hS.lib _ _ hprm hs0 hs1 true 1 0)
    (lpcComm_opens hS.lib _ listMerkle_lawful _ hprm hsteps hc (by decide)
      (fun _ => show (5 : ZMod 257) ≠ 0 by decide) true 1 0 (by intro h; exact absurd h (by decide)))
    (lpcComm_complete hS.lib _ listMerkle_lawful _ hprm true 1 0) (lpcComm_rootLaws _ _ _ true 1 0) hlaws hmax
    hpre hout
  obtain ⟨proof, -, hacc⟩ := h (by
    intro k i pts hpts x hx k'
    obtain ⟨r, rfl⟩ := requested_rotation (columnsRotations_spec _ _ _ (preprocess_facts hpre).rotations).1 hpts
      k i x hx
    exact outside_of_challenge hS.lib (by norm_num) hprm.adicity hout r k')
  refine ⟨T, _, rfl, pd, o0, proof, hpre, fun x => hacc (by simp [exPlonkForged]) [[x]] (.inr rfl) le_rfl ?_⟩
  intro xs hxs
  rw [List.mem_singleton.1 hxs]
  exact (by norm_num : 1 < 2 ^ 2)

end Crypto3Zk
