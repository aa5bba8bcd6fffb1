import Verif.Model.Groth16

/-!
# The argument for unitary-square constraint systems (`uscs_ppzksnark`)

Same conventions as for Groth16: randomness is a parameter, the pairing is a bilinear map. Failed
assertions are `none`.
-/

namespace Crypto3Zk

/-- `uscs_ppzksnark_proving_key` (fields filled at uscs_ppzksnark/generator.hpp:169-173) -/
structure UscsPK (F G1 G2 : Type) [Field F] where
  vG1Query : List G1
  alphaVG1Query : List G1
  hG1Query : List G1
  vG2Query : List G2
  cs : USCS F

/-- `uscs_ppzksnark_verification_key` (generator.hpp:165-166) and its processed form
(verifier.hpp:73-89) -/
structure UscsVK (G1 G2 : Type) where
  tildeG2 : G2
  alphaTildeG2 : G2
  zG2 : G2
  encodedIC : AccVec G1

/-- `uscs_ppzksnark_proof` (uscs_ppzksnark/proof.hpp:46-49) -/
structure UscsProof (G1 G2 : Type) where
  vG1 : G1
  alphaVG1 : G1
  hG1 : G1
  vG2 : G2

section

variable {F G1 G2 GT : Type} [Field F] [DecidableEq F] [AddCommGroup G1] [Module F G1]
  [AddCommGroup G2] [Module F G2] [AddCommGroup GT] [Module F GT]

/-- `uscs_ppzksnark_generator::process` (generator.hpp:68-176) with the random `t`, `alpha`, `tilde`
as arguments; the bases are the fixed generators. The size assertions of lines 98-101 hold by
construction of the vectors that precede them; the assertion of lines 102-104 is the `guard`. -/
def uscsGenerate (P : Pairing F G1 G2 GT) (D : EvalDomain F) (cs : USCS F) (t alpha tilde : F) :
    Option (UscsPK F G1 G2 × UscsVK G1 G2) := do
  let q ← cs.sspEval D t
  let Vt := q.Vt ++ [q.Zt]
  let Xt ← slice Vt 0 (q.numInputs + 1)
  let rest ← slice Vt (q.numInputs + 1) Vt.length
  guard (Vt.length = q.numVariables + 2)
  guard (q.Ht.length = q.degree + 1)
  guard (Xt.all fun x => x ≠ 0)
  let x0 ← Xt[0]?
  pure (
    { vG1Query := batchExp P.one1 rest
      alphaVG1Query := batchExpWithCoeff P.one1 alpha rest
      hG1Query := batchExp P.one1 q.Ht
      vG2Query := batchExp P.one2 Vt
      cs },
    { tildeG2 := tilde • P.one2
      alphaTildeG2 := (alpha * tilde) • P.one2
      zG2 := q.Zt • P.one2
      encodedIC := ⟨x0 • P.one1, batchExp P.one1 (Xt.drop 1)⟩ })

/-- `uscs_ppzksnark_prover::process` (prover.hpp:69-136) with the random `d` as an argument -/
def uscsProve (D : EvalDomain F) (pk : UscsPK F G1 G2) (primary aux : List F) (d : F) :
    Option (UscsProof G1 G2) := do
  let wit ← pk.cs.sspWitness D primary aux d
  let sat ← pk.cs.isSatisfied primary aux
  guard (sat = true)
  guard (pk.vG1Query.length = wit.numVariables + 2 - wit.numInputs - 1)
  guard (pk.alphaVG1Query.length = wit.numVariables + 2 - wit.numInputs - 1)
  guard (pk.hG1Query.length = wit.degree + 1)
  guard (pk.vG2Query.length = wit.numVariables + 2)
  let vLast ← pk.vG1Query[pk.vG1Query.length - 1]?
  let aLast ← pk.alphaVG1Query[pk.alphaVG1Query.length - 1]?
  let v20 ← pk.vG2Query[0]?
  let v2Last ← pk.vG2Query[pk.vG2Query.length - 1]?
  let auxCoeffs ← slice wit.coefficientsForVs wit.numInputs wit.numVariables
  let vBases ← slice pk.vG1Query 0 (wit.numVariables - wit.numInputs)
  let vSum ← multiexp vBases auxCoeffs
  let aBases ← slice pk.alphaVG1Query 0 (wit.numVariables - wit.numInputs)
  let aSum ← multiexp aBases auxCoeffs
  let hBases ← slice pk.hG1Query 0 (wit.degree + 1)
  let hCoeffs ← slice wit.coefficientsForH 0 (wit.degree + 1)
  let hSum ← multiexp hBases hCoeffs
  let v2Bases ← slice pk.vG2Query 1 (wit.numVariables + 1)
  let allCoeffs ← slice wit.coefficientsForVs 0 wit.numVariables
  let v2Sum ← multiexp v2Bases allCoeffs
  pure ⟨wit.d • vLast + vSum, wit.d • aLast + aSum, 0 + hSum, v20 + wit.d • v2Last + v2Sum⟩

/-- `uscs_ppzksnark_proof::is_well_formed` (proof.hpp:75-78) -/
def UscsProof.wellFormed (P : Pairing F G1 G2 GT) (π : UscsProof G1 G2) : Bool :=
  P.wf1 π.vG1 && P.wf1 π.alphaVG1 && P.wf1 π.hG1 && P.wf2 π.vG2

/-- `uscs_ppzksnark_verifier_weak_input_consistency::process` (verifier.hpp:109-183); `none` is the
failed assertion of line 126 -/
def uscsVerifyWeak [DecidableEq GT] (P : Pairing F G1 G2 GT) (vk : UscsVK G1 G2)
    (primary : List F) (π : UscsProof G1 G2) : Option Bool := do
  let acc ← vk.encodedIC.accumulate primary
  let result := π.wellFormed P
  let v := P.e (π.vG1 + acc) P.one2 + -(P.e P.one1 π.vG2)
  let result := if v ≠ 0 then false else result
  let ssp := -(P.e (π.vG1 + acc) π.vG2) + P.e π.hG1 vk.zG2 + P.e P.one1 P.one2
  let result := if ssp ≠ 0 then false else result
  let alphaV := P.e π.vG1 vk.alphaTildeG2 + -(P.e π.alphaVG1 vk.tildeG2)
  let result := if alphaV ≠ 0 then false else result
  pure result

/-- `uscs_ppzksnark_verifier_strong_input_consistency::process` (verifier.hpp:201-227) -/
def uscsVerifyStrong [DecidableEq GT] (P : Pairing F G1 G2 GT) (vk : UscsVK G1 G2)
    (primary : List F) (π : UscsProof G1 G2) : Option Bool :=
  if vk.encodedIC.domainSize ≠ primary.length then some false
  else uscsVerifyWeak P vk primary π

end

end Crypto3Zk
