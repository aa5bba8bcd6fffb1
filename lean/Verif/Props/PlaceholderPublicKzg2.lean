import Verif.Props.PlaceholderPublicSoundExample
import Verif.Props.PlaceholderKzg2Sound

/-!
# C103 over the second KZG scheme

The statement of `C103_kzg_statement_partial` with `kzg_commitment_scheme_v2`, and the other public inputs that an
honest proof is accepted with.
-/

set_option linter.unusedSectionVars false

namespace Crypto3Zk

open Polynomial

section
variable {F : Type} [Field F] [LinearOrder F] {G1 G2 GT : Type} [AddCommGroup G1] [Module F G1]
  [AddCommGroup G2] [Module F G2] [AddCommGroup GT] [Module F GT] [DecidableEq GT]
variable {L : FftLib F} {A n fuel : Nat} {d : TableDesc} {c : Circuit F} {order : List PlonkVar}
  {t : PlonkTable F} {delta : F} {mqc : Nat} {pre : PermData F}

/-- **C103**, in part, for placeholder over the second KZG scheme: the provers are those of `C108_kzg2_sound_partial`.
With public inputs that are chosen before the challenge `y` is drawn, an accepted proof says that the table satisfies
the circuit and has these public inputs. Missing: what is missing in `C103_statement_partial` and
`C108_kzg2_sound_partial`. -/
theorem C103_kzg2_statement_partial (hS : PlaceholderSetup L A n fuel d c order t)
    (hperm : permPreprocess L n fuel d c.copies order delta mqc = some pre) (hdeg : DegreesFit c)
    {dg : Nat} (hdg : ∀ g ∈ c.gates, ∀ e ∈ g.constraints, e.degree ≤ dg)
    (hone : c.copies ≠ [] → pre.parts = 1)
    (hlone : c.lookups.gates ≠ [] → (c.lookups.parts mqc).length = 1)
    (hdelta : c.copies ≠ [] → DeltaSeparates n order.length delta)
    {w : Nat} (hlk : c.lookups.gates ≠ [] → LookupsCheckable t c.lookups d.usableRows w)
    (hrot : ∀ i r, VarUsed d c (d.witness + i) r → 0 ≤ r)
    (hn : 1 ≤ n) (hr : RotationsDistinct n d c) (hu : c.lookups.gates ≠ [] → 2 ≤ d.usableRows)
    (P : Pairing F G1 G2 GT) (hP : P.e P.one1 P.one2 ≠ 0) (dk tk : Nat) (hdk : 2 ^ n ≤ dk) :
    ∃ B : BadChallenges F, B.Small c n d.usableRows order.length dg w ∧
      ∀ publicInput : List (List F),
      (∀ i xs, publicInput[i]? = some xs → publicSize c.publicInputSizes i xs ≤ 2 ^ n) →
      ∃ badY : Finset F, badY.card ≤ publicInput.length * (2 ^ n - 1) ∧
      ∀ m : ProverMessages F, m.Sized n → ∀ z : EvalStorage F, ValuesSized c (committedPolys L c pre t m) z →
      ∀ y : F, y ≠ 0 → y ∉ badY → ∃ badTheta : Finset F,
        badTheta.card ≤ ((openedBatches c).map fun k => (committedPolys L c pre t m k).length).sum - 1 ∧
        ∀ theta ∉ badTheta, ∀ g : List F, g.length ≤ dk → ∃ badTheta2 : Finset F,
          badTheta2.card ≤ dk - 1 + 2 ^ n ∧ ∀ theta2 ∉ badTheta2, ∀ q : List F, q.length ≤ dk →
          ∃ badTrapdoor : Finset F, badTrapdoor.card ≤ dk ∧ ∀ alpha ∉ badTrapdoor,
          ∀ {S H : Type} (codec : PointCodec G1) (_ : codec.Lawful) (KT : KzgTranscript S F)
            (T : PlonkTranscript S F H (List UInt8)) (hash : H)
            (C : CommScheme F S (List UInt8) (G1 × G1) Bool (KzgScheme F)),
            C = kzg2Comm L P (batchedKzgSetup P dk tk alpha) codec KT →
            ∀ (pd : PublicData F H (List UInt8) Bool) (o0 : KzgScheme F) (t0 : PlonkTable F),
            placeholderPreprocess C T L n fuel d c order delta mqc hash t0 C.new = some (pd, o0) →
            t0.constants = t.constants → t0.selectors = t.selectors →
            ∀ (proof : PlaceholderProof F (List UInt8) (G1 × G1)),
              proof.eval = (z, evalPoly g alpha • P.one1, evalPoly q alpha • P.one1) →
              (proof.commitments.insert FIXED_BATCH pd.common.fixedCommitment).keys = openedBatches c →
              (∀ k ∈ openedBatches c, k ≠ FIXED_BATCH → ∀ blob, proof.commitments.find k = some blob →
                CommitsTo codec P.one1 alpha blob (committedPolys L c pre t m k)) →
              ∀ (vcom lcom pcom qcom : List UInt8), proof.commitments.find VARIABLE_BATCH = some vcom →
              (c.lookups.gates ≠ [] → proof.commitments.find LOOKUP_BATCH = some lcom) →
              (c.copies ≠ [] ∨ c.lookups.gates ≠ [] → proof.commitments.find PERMUTATION_BATCH = some pcom) →
              proof.commitments.find QUOTIENT_BATCH = some qcom →
              B.Avoided c m (readChallenges T c m.sorted.length vcom lcom pcom qcom
                (T.key pd.common.hash pd.common.fixedCommitment)) →
              (readChallenges T c m.sorted.length vcom lcom pcom qcom
                (T.key pd.common.hash pd.common.fixedCommitment)).y = y →
              KzgDrawsTwo C KT codec L n d c pd.common o0 z y
                (proof.commitments.insert FIXED_BATCH pd.common.fixedCommitment)
                (openingState T c m.sorted.length vcom lcom pcom qcom
                  (T.key pd.common.hash pd.common.fixedCommitment)) (evalPoly g alpha • P.one1) theta theta2 →
              placeholderVerifyPublic C T L n true d c pd.common proof o0 publicInput = some true →
              TableSatisfies d c t ∧ PublicInputsIn c n t publicInput := by
  obtain ⟨B, hB, hsound⟩ := C103_statement_partial hS hperm hdeg hdg hone hlone hdelta hlk hrot
  refine ⟨B, hB, fun publicInput hfit => ?_⟩
  obtain ⟨badY, hbY, hsound⟩ := hsound publicInput hfit
  refine ⟨badY, hbY, fun m hm z hz y hy hyb => ?_⟩
  obtain ⟨badTheta, hbg, h⟩ := C108_opened_truly hS hperm hone hlone hn hr hu P hP dk tk hdk m hm z hz y hy
  refine ⟨badTheta, hbg, fun theta htheta g hg => ?_⟩
  obtain ⟨badTheta2, hbt2, h⟩ := h theta htheta g hg
  refine ⟨badTheta2, hbt2, fun theta2 htheta2 q hq => ?_⟩
  obtain ⟨badTrapdoor, hbt, h⟩ := h theta2 htheta2 q hq
  refine ⟨badTrapdoor, hbt, fun alpha halpha S H codec hcodec KT T hash C hC pd o0 t0 hpre htc hts proof heval hkeys
    hcom vcom lcom pcom qcom hvc hlc hpc hqc hav hyy hdraw hacc => ?_⟩
  have hacc' := ((C38_verdict hS.lib hS.small hS.rows true publicInput hfit).1 hacc).2.1
  have ho := h alpha halpha codec hcodec KT T hash C hC pd o0 t0 hpre htc hts proof heval hkeys hcom vcom lcom pcom
    qcom hvc hlc hpc hqc hyy hdraw hacc'
  refine hsound C T hash C.new o0 pd t0 hpre htc hts proof m hm ho vcom lcom pcom qcom hvc hlc hpc hqc _ rfl ?_ ?_ hacc
  · subst hC
    exact hav
  · subst hC
    exact hyy ▸ hyb

end

/-- **C103** is false, an example over the second KZG scheme: an honest proof for the public inputs `4` and `9` is also accepted with the public
input `3` in the place of `4` and some other in the place of `9`, for every trapdoor and all transcripts (with
challenges other than zero and the rows), although `3` is not a square. -/
theorem C103_kzg2_example (alpha : ZMod 257) (S H : Type) (KT : KzgTranscript S (ZMod 257))
    (T : PlonkTranscript S (ZMod 257) H (List UInt8)) (hash : H)
    (hT : ∀ st, (T.challenge st).1 ≠ 0 ∧ (T.challenge st).1 ^ 4 ≠ 1)
    (C : CommScheme (ZMod 257) S (List UInt8) (ZMod 257 × ZMod 257) Bool (KzgScheme (ZMod 257)))
    (hC : C = kzg2Comm (FftLib.ofRoots exRoots257) exPairing257 (batchedKzgSetup exPairing257 4 4 alpha)
      exCodec257 KT) :
    ∃ pd o0 proof, placeholderPreprocess C T (FftLib.ofRoots exRoots257) 2 (2 ^ 64) exSquareDesc exSquares
        [] 3 0 hash exSquaresTable C.new = some (pd, o0) ∧
      placeholderProve C T (FftLib.ofRoots exRoots257) 2 exSquareDesc exSquares [] pd exSquaresTable o0 = some proof ∧
      placeholderVerifyPublic C T (FftLib.ofRoots exRoots257) 2 true exSquareDesc exSquares pd.common proof o0
        [[4, 9]] = some true ∧
      ∃ x, placeholderVerifyPublic C T (FftLib.ofRoots exRoots257) 2 true exSquareDesc exSquares pd.common proof o0
          [[3, x]] = some true ∧
        ¬ StatementTrue exSquareDesc exSquares 2 exSquaresTable [[3, x]] := by
  obtain ⟨parts, badP, badT, badL, -, -, -, h⟩ := C106_kzg2_complete (mqc := 0) exSquaresSetup
    (by decide +kernel) (.inl rfl) exSquaresFit (.inl rfl)
    (fun c hc => by simp [exSquares, exSquareCircuit] at hc)
    exSquaresGates 0 (fun h => absurd rfl h) 3 (by norm_num) exSquareRotations (fun h => absurd rfl h)
  obtain ⟨pd, o0, hpre, h⟩ := h exPairing257 4 4 alpha exCodec257 KT T hash C exCodec257_lawful (by norm_num)
    (by norm_num) hC
  obtain ⟨y, hy, h⟩ := h ⟨fun h => absurd rfl h, fun h => absurd rfl h, fun h => absurd rfl h⟩
  obtain ⟨st, rfl⟩ := openingChallenge_drawn hy
  obtain ⟨proof, hprove, hv, -⟩ := h (hT st).1
  have hacc := (hv (.inl (by simp [exSquaresTable])) true).2 (fun k _ hk => (hT st).2 (by
    rw [hk, ← pow_mul, mul_comm, pow_mul]
    have : (FftLib.ofRoots exRoots257).root 2 ^ 4 = 1 := by decide
    rw [this, one_pow])) _ exSquaresPublic
  refine ⟨pd, o0, proof, hpre, hprove, hacc, ?_⟩
  obtain ⟨xs', hl, h0, -, hx⟩ := C103_any_value (j := 0) (k := 1) exLib257_lawful (by norm_num) rfl
    (fun i xs hi => (exSquaresPublic.fits i xs hi).2) hacc (i := 0) (xs := [4, 9]) rfl (by decide) (by decide)
    (by decide) 3
  obtain ⟨a, x, rfl⟩ : ∃ a x, xs' = [a, x] := List.length_eq_two.1 hl
  simp only [List.getElem?_cons_zero, Option.some.injEq] at h0
  subst h0
  exact ⟨x, hx, exSquares_false x⟩

/-- The hypotheses of `C103_kzg2_statement_partial` are met by this circuit and table. -/
example (pre : PermData (ZMod 257))
    (hperm : permPreprocess (FftLib.ofRoots exRoots257) 2 (2 ^ 64) exSquareDesc [] [] 3 0 = some pre) :=
  C103_kzg2_statement_partial (dg := 2) (w := 0) exSquaresSetup hperm exSquaresFit exSquareDegree
    (fun h => absurd rfl h) (fun h => absurd rfl h) (fun h => absurd rfl h) (fun h => absurd rfl h)
    (fun i r hr => (exSquaresUsed _ r hr).ge) (by norm_num) exSquareRotations (fun h => absurd rfl h) exPairing257
    (by decide) 4 1 (by norm_num)

end Crypto3Zk
