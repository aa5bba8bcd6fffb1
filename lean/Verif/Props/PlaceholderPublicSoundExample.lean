import Verif.Props.PlaceholderPublicSound
import Verif.Props.PlaceholderKzgSoundExample

/-!
# C103: examples

Two public inputs that have to be squares modulo 257.
-/

set_option linter.unusedSectionVars false

namespace Crypto3Zk

/-- The circuit of `exSquareCircuit`, with two public inputs. -/
def exSquares : Circuit (ZMod 257) := { exSquareCircuit with publicInputSizes := [2] }

/-- the public inputs `4` and `9`, and the witness `2` and `3` -/
def exSquaresTable : PlonkTable (ZMod 257) := ⟨[[2, 3, 0, 0]], [[4, 9, 0, 0]], [], [[1, 1, 0, 0]]⟩

theorem exSquaresSetup : PlaceholderSetup (FftLib.ofRoots exRoots257) 4 2 (2 ^ 64) exSquareDesc exSquares
    [] exSquaresTable where
  lib := exLib257_lawful
  small := by norm_num
  rows := rfl
  usable := by decide
  used := by decide
  width := by decide
  rows32 := by norm_num
  fits := ⟨rfl, rfl, rfl, rfl, by unfold PlonkTable.Rectangular; decide, by decide⟩
  copies := by
    intro c hc v hv
    simp [exSquares, exSquareCircuit] at hc
  nodup := by decide
  members := by
    intro v
    simp [permutedVars, exSquares, exSquareCircuit]
  gates := by
    intro g hg
    simp only [exSquares, exSquareCircuit, List.mem_singleton] at hg
    subst hg
    refine ⟨by decide, ?_⟩
    intro c hc v hv
    simp only [List.mem_singleton] at hc
    subst hc
    simp only [Expr.visitVars, List.mem_append, List.mem_singleton] at hv
    rcases hv with rfl | rfl <;> exact ⟨_, rfl, by decide⟩
  lookups := by
    refine ⟨fun g hg => ?_, fun tab htab => ?_⟩
    · simp [exSquares, exSquareCircuit] at hg
    · simp [exSquares, exSquareCircuit] at htab
  degree := exSquareSetup.degree
  fuel := le_rfl

theorem exSquaresGates : GatesHold exSquaresTable exSquares.gates 3 := by
  intro j hj g hg hs e he
  simp only [exSquares, exSquareCircuit, List.mem_singleton] at hg
  subst hg
  simp only [List.mem_singleton] at he
  subst he
  interval_cases j <;> decide +kernel

theorem exSquaresFit : DegreesFit exSquares := ⟨exSquareFit.gates, exSquareFit.inputs, exSquareFit.total⟩

theorem exSquaresUsed (i : Nat) (r : Int) (h : VarUsed exSquareDesc exSquares i r) : r = 0 := exSquareUsed i r h

theorem exSquaresPublic : PublicInputOf exSquareDesc exSquares 2 exSquaresTable [[4, 9]] where
  sizes := .inr rfl
  fits := by
    intro i xs h
    obtain rfl : i = 0 := by
      have := (List.getElem?_eq_some_iff.1 h).1
      simpa using this
    simp only [List.getElem?_cons_zero, Option.some.injEq] at h
    subst h
    exact ⟨fun _ => by decide, by decide⟩
  given := by
    intro i xs h
    obtain rfl : i = 0 := by
      have := (List.getElem?_eq_some_iff.1 h).1
      simpa using this
    simp only [List.getElem?_cons_zero, Option.some.injEq] at h
    subst h
    exact ⟨[4, 9, 0, 0], 0, rfl, ⟨.inl rfl, le_rfl, fun r hr => (exSquaresUsed _ _ hr).ge⟩, by decide +kernel⟩

/-- No table satisfies the circuit with the public input `3` in the first row. -/
theorem exSquares_false (x : ZMod 257) : ¬ StatementTrue exSquareDesc exSquares 2 exSquaresTable [[3, x]] := by
  rintro ⟨t, -, hs, hrows, hsat, hpub⟩
  obtain ⟨col, hcol, hv⟩ := hpub 0 [3, x] rfl
  have h3 : col.getD 0 0 = 3 := (hv 0 (by norm_num)).trans rfl
  have hc0 : col[0]? = some 3 := by
    cases hc : col[0]? with
    | none => simp [List.getD, hc] at h3; exact absurd h3 (by decide)
    | some a => simpa [List.getD, hc] using h3
  have h := hsat.gates 0 (by decide) _ (List.mem_singleton.2 rfl) (by
    unfold PlonkTable.selectorAt
    rw [hs]
    decide) _ (List.mem_singleton.2 rfl)
  have hr : t.rowsAmount = 4 := hrows
  have hsq : ∀ w : ZMod 257, w ^ 2 - 3 ≠ 0 := by decide +kernel
  simp only [evaluateAtRow, Expr.evalM, PlonkTable.cell, PlonkTable.columnsOf, hr, rotatedRow,
    List.foldlM_cons, List.foldlM_nil] at h
  cases hc : t.witnesses[0]? with
  | none => simp [hc] at h
  | some wc =>
    cases hw : wc[0]? with
    | none => simp [hc, hw] at h
    | some w =>
      simp [hc, hw, hcol, hc0] at h
      exact hsq w h

/-- **C103** is false, an example: an honest proof for the public inputs `4` and `9` is also accepted with the public
input `3` in the place of `4` and some other in the place of `9`, for every trapdoor and all transcripts (with
challenges other than zero and the rows), although `3` is not a square. -/
theorem C103_example (alpha : ZMod 257) (S H : Type) (KT : KzgTranscript S (ZMod 257))
    (T : PlonkTranscript S (ZMod 257) H (List UInt8)) (hash : H)
    (hT : ∀ st, (T.challenge st).1 ≠ 0 ∧ (T.challenge st).1 ^ 4 ≠ 1)
    (C : CommScheme (ZMod 257) S (List UInt8) (ZMod 257) Bool (KzgScheme (ZMod 257)))
    (hC : C = kzgComm (FftLib.ofRoots exRoots257) exPairing257 (batchedKzgSetup exPairing257 4 4 alpha)
      exCodec257 KT) :
    ∃ pd o0 proof, placeholderPreprocess C T (FftLib.ofRoots exRoots257) 2 (2 ^ 64) exSquareDesc exSquares
        [] 3 0 hash exSquaresTable C.new = some (pd, o0) ∧
      placeholderProve C T (FftLib.ofRoots exRoots257) 2 exSquareDesc exSquares [] pd exSquaresTable o0 = some proof ∧
      placeholderVerifyPublic C T (FftLib.ofRoots exRoots257) 2 true exSquareDesc exSquares pd.common proof o0
        [[4, 9]] = some true ∧
      ∃ x, placeholderVerifyPublic C T (FftLib.ofRoots exRoots257) 2 true exSquareDesc exSquares pd.common proof o0
          [[3, x]] = some true ∧
        ¬ StatementTrue exSquareDesc exSquares 2 exSquaresTable [[3, x]] := by
  obtain ⟨parts, badP, badT, badL, -, -, -, h⟩ := C100_kzg_complete (mqc := 0) exSquaresSetup
    (by decide +kernel) (.inl rfl) exSquaresFit (.inl rfl)
    (fun c hc => by simp [exSquares, exSquareCircuit] at hc)
    exSquaresGates 0 (fun h => absurd rfl h) 3 (by norm_num) exSquareRotations (fun h => absurd rfl h)
  obtain ⟨pd, o0, hpre, h⟩ := h exPairing257 4 4 alpha exCodec257 KT T hash C exCodec257_lawful (by norm_num)
    (by norm_num) hC
  obtain ⟨y, hy, h⟩ := h ⟨fun h => absurd rfl h, fun h => absurd rfl h, fun h => absurd rfl h⟩
  obtain ⟨st, rfl⟩ := openingChallenge_drawn hy
  obtain ⟨proof, hprove, hv⟩ := h (hT st).1
  have hacc := (hv true).2 (fun k _ hk => (hT st).2 (by
    rw [hk, ← pow_mul, mul_comm, pow_mul]
    have : (FftLib.ofRoots exRoots257).root 2 ^ 4 = 1 := by decide
    rw [this, one_pow])) _ exSquaresPublic
  refine ⟨pd, o0, proof, hpre, hprove, hacc, ?_⟩
  obtain ⟨xs', hl, h0, -, hx⟩ := C103_any_value (j := 0) (k := 1) exLib257_lawful (by norm_num) rfl
    (fun i xs hi => (exSquaresPublic.fits i xs hi).2) hacc (i := 0) (xs := [4, 9]) rfl (by decide) (by decide)
    (by decide) 3
  obtain ⟨a, x, rfl⟩ : ∃ a x, xs' = [a, x] := List.length_eq_two.1 hl
  simp only [List.getElem?_cons_zero, Option.some.injEq] at h0
  subst h0
  exact ⟨x, hx, exSquares_false x⟩

/-- There is such a transcript. -/
example : ∃ T : PlonkTranscript Nat (ZMod 257) Unit (List UInt8),
    ∀ st, (T.challenge st).1 ≠ 0 ∧ (T.challenge st).1 ^ 4 ≠ 1 :=
  ⟨⟨0, fun _ s => s + 1, fun _ s => s + 1, fun s => (3, s + 1)⟩,
    fun _ => show (3 : ZMod 257) ≠ 0 ∧ (3 : ZMod 257) ^ 4 ≠ 1 by decide⟩

/-- The hypotheses of `C103_statement_partial` are met: with public inputs chosen before the challenge, an accepted
proof for the table says that they are `4` and `9`. -/
theorem C103_statement_example (pre : PermData (ZMod 257))
    (hperm : permPreprocess (FftLib.ofRoots exRoots257) 2 (2 ^ 64) exSquareDesc [] [] 3 0 = some pre) (a b : ZMod 257) :
    ∃ B : BadChallenges (ZMod 257), B.Small exSquares 2 3 0 2 0 ∧ ∃ badY : Finset (ZMod 257), badY.card ≤ 3 ∧
      ∀ {S H Com Pr Data Obj : Type} (C : CommScheme (ZMod 257) S Com Pr Data Obj)
        (T : PlonkTranscript S (ZMod 257) H Com) (hash : H) (obj o0 : Obj) (pd : PublicData (ZMod 257) H Com Data),
        placeholderPreprocess C T (FftLib.ofRoots exRoots257) 2 (2 ^ 64) exSquareDesc exSquares [] 3 0 hash
          exSquaresTable obj = some (pd, o0) →
        ∀ (proof : PlaceholderProof (ZMod 257) Com Pr) (m : ProverMessages (ZMod 257)), m.Sized 2 →
          OpenedTruly (FftLib.ofRoots exRoots257) 2 exSquareDesc exSquares pd.common pre exSquaresTable m proof →
          ∀ vcom qcom : Com, proof.commitments.find VARIABLE_BATCH = some vcom →
            proof.commitments.find QUOTIENT_BATCH = some qcom →
            ∀ x, x = readChallenges T exSquares m.sorted.length vcom vcom vcom qcom
              (C.setup o0 (T.key pd.common.hash pd.common.fixedCommitment) pd.common.schemeData).1 →
            B.Avoided exSquares m x → x.y ∉ badY →
            placeholderVerifyPublic C T (FftLib.ofRoots exRoots257) 2 true exSquareDesc exSquares pd.common proof o0
              [[a, b]] = some true → a = 4 ∧ b = 9 := by
  obtain ⟨B, hB, h⟩ := C103_statement_partial (dg := 2) (w := 0) exSquaresSetup hperm exSquaresFit exSquareDegree
    (fun h => absurd rfl h) (fun h => absurd rfl h) (fun h => absurd rfl h) (fun h => absurd rfl h)
    (fun i r hr => (exSquaresUsed _ r hr).ge)
  obtain ⟨badY, hbY, h⟩ := h [[a, b]] (by
    intro i xs hi
    obtain rfl : i = 0 := by
      have := (List.getElem?_eq_some_iff.1 hi).1
      simpa using this
    simp only [List.getElem?_cons_zero, Option.some.injEq] at hi
    subst hi
    simp [publicSize, exSquares])
  refine ⟨B, hB, badY, hbY, ?_⟩
  intro S H Com Pr Data Obj C T hash obj o0 pd hpre proof m hm ho vcom qcom hvc hqc x hx hav hy hacc
  obtain ⟨-, hpub⟩ := h C T hash obj o0 pd exSquaresTable hpre rfl rfl proof m hm ho vcom vcom vcom qcom hvc
    (fun h => absurd rfl h) (fun h => absurd h (by simp [exSquares, exSquareCircuit])) hqc x hx hav hy hacc
  obtain ⟨col, hcol, hv⟩ := hpub 0 [a, b] rfl
  obtain rfl : [4, 9, 0, 0] = col := Option.some_inj.1 hcol
  have h0 := hv 0 (by norm_num)
  have h1 := hv 1 (by norm_num)
  simp [publicSize, exSquares] at h0 h1
  exact ⟨h0.symm, h1.symm⟩

end Crypto3Zk
