import Verif.Props.PlaceholderHiding
import Verif.Props.PlaceholderKzgSoundExample

/-!
# C104: an example

Two square roots of a public input, in a table of seven rows.
-/

set_option linter.unusedSectionVars false

namespace Crypto3Zk

/-- as `exSquareDesc`, with seven usable rows of eight -/
def exRootDesc : TableDesc := ⟨1, 1, 0, 1, 7, 8⟩

/-- A square root `w` of the public input `4`. -/
def exRootTable (w : ZMod 257) : PlonkTable (ZMod 257) := ⟨[[w]], [[4]], [], [[1, 0, 0, 0, 0, 0, 0]]⟩

theorem exRoot_padded (w : ZMod 257) (rnd : Nat → ZMod 257) : zkPadding rnd (exRootTable w) =
    some (⟨[[w, 0, 0, 0, 0, 0, 0, rnd 0]], [[4, 0, 0, 0, 0, 0, 0, 0]], [],
      [[1, 0, 0, 0, 0, 0, 0, rnd 1]]⟩, 2 ^ 3) := by
  have hp : paddedRows 7 = some 8 := by decide +kernel
  rw [zkPadding_eq rnd (exRootTable w) (u := 7) rfl hp]
  rfl

theorem exRootSetup (w a b : ZMod 257) : PlaceholderSetup (FftLib.ofRoots exRoots257) 4 3 (2 ^ 64) exRootDesc
    exSquareCircuit [] ⟨[[w, 0, 0, 0, 0, 0, 0, a]], [[4, 0, 0, 0, 0, 0, 0, 0]], [], [[1, 0, 0, 0, 0, 0, 0, b]]⟩ where
  lib := exLib257_lawful
  small := by norm_num
  rows := rfl
  usable := by decide
  used := by decide
  width := by decide
  rows32 := by norm_num
  fits := ⟨rfl, rfl, rfl, rfl, by unfold PlonkTable.Rectangular; simp, rfl⟩
  copies := by
    intro c hc v hv
    simp [exSquareCircuit] at hc
  nodup := by decide
  members := by
    intro v
    simp [permutedVars, exSquareCircuit]
  gates := by
    intro g hg
    simp only [exSquareCircuit, List.mem_singleton] at hg
    subst hg
    refine ⟨Nat.zero_lt_one, ?_⟩
    intro c hc v hv
    simp only [List.mem_singleton] at hc
    subst hc
    simp only [Expr.visitVars, List.mem_append, List.mem_singleton] at hv
    rcases hv with rfl | rfl <;> exact ⟨_, rfl, Nat.zero_lt_one⟩
  lookups := by
    refine ⟨fun g hg => ?_, fun tab htab => ?_⟩
    · simp [exSquareCircuit] at hg
    · simp [exSquareCircuit] at htab
  degree := by
    have : exSquareCircuit.maxDegree = 2 := by decide +kernel
    rw [this]
    norm_num
  fuel := le_rfl

theorem exRootGates {w : ZMod 257} (hw : w ^ 2 = 4) (a b : ZMod 257) :
    GatesHold ⟨[[w, 0, 0, 0, 0, 0, 0, a]], [[4, 0, 0, 0, 0, 0, 0, 0]], [], [[1, 0, 0, 0, 0, 0, 0, b]]⟩
      exSquareCircuit.gates 7 := by
  intro j hj g hg hs e he
  simp only [exSquareCircuit, List.mem_singleton] at hg
  subst hg
  simp only [List.mem_singleton] at he
  subst he
  rcases Nat.eq_zero_or_pos j with rfl | hpos
  · have hr : rotatedRow 8 0 0 = some 0 := by decide +kernel
    simp [evaluateAtRow, Expr.evalM, PlonkTable.cell, PlonkTable.columnsOf, PlonkTable.rowsAmount,
      PlonkTable.maxSize, hr, hw]
  · exact absurd (by interval_cases j <;> rfl) hs

theorem exRootUsed (i : Nat) (r : Int) (h : VarUsed exRootDesc exSquareCircuit i r) : r = 0 := by
  obtain ⟨v, hv, -, rfl⟩ := h
  revert v
  decide +kernel

theorem exRootRotations : RotationsDistinct 3 exRootDesc exSquareCircuit := by
  have h : ∀ i r, (r = 0 ∨ VarUsed exRootDesc exSquareCircuit i r ∨
      LookupTableUsed exRootDesc exSquareCircuit i r) → r = 0 := by
    rintro i r (h | h | ⟨h, -⟩)
    · exact h
    · exact exRootUsed i r h
    · exact absurd rfl h
  intro i r r' h1 h2 _
  rw [h i r h1, h i r' h2]

/-- The prover succeeds, for both roots and all random values. -/
theorem exRoot_proof {w : ZMod 257} (hw : w ^ 2 = 4) (a b alpha : ZMod 257) {S H : Type} (KT : KzgTranscript S (ZMod 257))
    (T : PlonkTranscript S (ZMod 257) H (List UInt8)) (hash : H) (hT : ∀ st, (T.challenge st).1 ≠ 0)
    (C : CommScheme (ZMod 257) S (List UInt8) (ZMod 257) Bool (KzgScheme (ZMod 257)))
    (hC : C = kzgComm (FftLib.ofRoots exRoots257) exPairing257 (batchedKzgSetup exPairing257 8 8 alpha)
      exCodec257 KT) :
    ∃ proof, HonestProof C T (FftLib.ofRoots exRoots257) 3 (2 ^ 64) exRootDesc exSquareCircuit [] 3 0 hash
      ⟨[[w, 0, 0, 0, 0, 0, 0, a]], [[4, 0, 0, 0, 0, 0, 0, 0]], [], [[1, 0, 0, 0, 0, 0, 0, b]]⟩ proof := by
  obtain ⟨parts, badP, badT, badL, -, -, -, h⟩ := C100_kzg_complete (mqc := 0) (exRootSetup w a b)
    (by decide +kernel) (.inl rfl) exSquareFit (.inl rfl)
    (fun c hc => by simp [exSquareCircuit] at hc)
    (exRootGates hw a b) 0 (fun h => absurd rfl h) 3 (by norm_num) exRootRotations (fun h => absurd rfl h)
  obtain ⟨pd, o0, hpre, h⟩ := h exPairing257 8 8 alpha exCodec257 KT T hash C exCodec257_lawful (by norm_num)
    (by norm_num) hC
  obtain ⟨y, hy, h⟩ := h ⟨fun h => absurd rfl h, fun h => absurd rfl h, fun h => absurd rfl h⟩
  obtain ⟨st, rfl⟩ := openingChallenge_drawn hy
  obtain ⟨proof, hprove, -⟩ := h (hT st)
  exact ⟨proof, pd, o0, hpre, hprove⟩

/-- **C104** is false, an example: `2` and `-2` are the roots of the public input `4`. With either, there are proofs for
all random values of the padding; but there is no proof that is made with both, unless its challenge is one of eight
values. -/
theorem C104_example {alpha : ZMod 257} (halpha : alpha ^ 8 ≠ 1) :
    ∃ bad : Finset (ZMod 257), bad.card ≤ 8 ∧
      ∀ (S H : Type) (KT : KzgTranscript S (ZMod 257)) (T : PlonkTranscript S (ZMod 257) H (List UInt8)) (hash : H)
        (C : CommScheme (ZMod 257) S (List UInt8) (ZMod 257) Bool (KzgScheme (ZMod 257))),
        (∀ st, (T.challenge st).1 ≠ 0) →
        C = kzgComm (FftLib.ofRoots exRoots257) exPairing257 (batchedKzgSetup exPairing257 8 8 alpha) exCodec257 KT →
        ∀ rnd1 rnd2, ∃ t1 t2, zkPadding rnd1 (exRootTable 2) = some (t1, 2 ^ 3) ∧
          zkPadding rnd2 (exRootTable (-2)) = some (t2, 2 ^ 3) ∧
          GatesHold t1 exSquareCircuit.gates 7 ∧ GatesHold t2 exSquareCircuit.gates 7 ∧
          (∃ proof1, HonestProof C T (FftLib.ofRoots exRoots257) 3 (2 ^ 64) exRootDesc exSquareCircuit [] 3 0 hash
            t1 proof1) ∧
          (∃ proof2, HonestProof C T (FftLib.ofRoots exRoots257) 3 (2 ^ 64) exRootDesc exSquareCircuit [] 3 0 hash
            t2 proof2) ∧
          ∀ proof, HonestProof C T (FftLib.ofRoots exRoots257) 3 (2 ^ 64) exRootDesc exSquareCircuit [] 3 0 hash
              t1 proof →
            HonestProof C T (FftLib.ofRoots exRoots257) 3 (2 ^ 64) exRootDesc exSquareCircuit [] 3 0 hash t2 proof →
            proof.challenge ∈ bad := by
  obtain ⟨bad, hbad, h⟩ := C104_one_row_reveals (n := 3) (fuel := 2 ^ 64) (d := exRootDesc) (c := exSquareCircuit)
    (order := []) (delta := 3) (mqc := 0) (by norm_num) (T1 := exRootTable 2) (T2 := exRootTable (-2))
    ⟨rfl, rfl, rfl, rfl, rfl⟩ (by decide +kernel) rfl (i := 0) (j := 0) (by decide) (by decide) (by decide) rfl
    exRootRotations exPairing257 (by decide) (dk := 8) (tk := 8) (by norm_num) (by norm_num) halpha exLib257_lawful
    (by norm_num)
  refine ⟨bad, hbad, fun S H KT T hash C hT hC rnd1 rnd2 => ⟨_, _, exRoot_padded 2 rnd1, exRoot_padded (-2) rnd2,
    exRootGates (by decide) _ _, exRootGates (by decide) _ _, exRoot_proof (by decide) _ _ alpha KT T hash hT C hC,
    exRoot_proof (by decide) _ _ alpha KT T hash hT C hC, fun proof h1 h2 => ?_⟩⟩
  exact h exCodec257 exCodec257_lawful KT T hash C hC rnd1 rnd2 _ _ (exRoot_padded 2 rnd1) (exRoot_padded (-2) rnd2)
    (exRootSetup _ _ _) (exRootSetup _ _ _) proof proof h1 h2 rfl

/-- The hypotheses of `C104_columns_hidden_partial` are met: a table of five rows is padded to eight, and three points
can be seen. -/
example : ∃ shift : Nat → ZMod 257, ∀ rnd : Nat → ZMod 257, ∃ t1 t2,
    zkPadding rnd ⟨[[2, 3, 5, 7, 11]], [[4]], [], []⟩ = some (t1, 2 ^ 3) ∧
    zkPadding (fun k => rnd k + shift k) ⟨[[1, 1, 1, 1, 1]], [[4]], [], []⟩ = some (t2, 2 ^ 3) ∧ SamePublic t1 t2 ∧
    ∀ z ∈ ({3, 12, 5} : Finset (ZMod 257)), (columnPoly (FftLib.ofRoots exRoots257) t1 0 .witness).eval z =
      (columnPoly (FftLib.ofRoots exRoots257) t2 0 .witness).eval z := by
  obtain ⟨shift, -, h⟩ := C104_columns_hidden_partial (n := 3) exLib257_lawful (by norm_num)
    (T1 := ⟨[[2, 3, 5, 7, 11]], [[4]], [], []⟩) (T2 := ⟨[[1, 1, 1, 1, 1]], [[4]], [], []⟩)
    ⟨rfl, rfl, rfl, rfl, rfl⟩ (by decide) (by decide +kernel) (fun _ => {3, 12, 5})
    (fun _ => by decide +kernel)
    (fun _ => by decide +kernel)
  refine ⟨shift, fun rnd => ?_⟩
  obtain ⟨t1, t2, h1, h2, h3, h4⟩ := h rnd
  exact ⟨t1, t2, h1, h2, h3, h4 0⟩

end Crypto3Zk
