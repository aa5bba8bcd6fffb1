import Verif.Model.Placeholder

/-!
# The digest of a circuit and the verification key

Models placeholder/detail/transcript_initialization_context.hpp, the verification key and the two
constructors of the common data (placeholder/preprocessor.hpp).
-/

namespace Crypto3Zk

variable {F : Type} [Field F] [DecidableEq F] {P B S H Com Pr Data Obj : Type}

/-- `transcript_initialization_context` (transcript_initialization_context.hpp:48-97); `P` are the
parameters of the commitment scheme. -/
structure InitContext (F P : Type) where
  witness : Nat
  publicInput : Nat
  constant : Nat
  selector : Nat
  rows : Nat
  usableRows : Nat
  delta : F
  params : P
  modulus : Nat
  applicationId : String

/-- the constructor (transcript_initialization_context.hpp:59-75) -/
def InitContext.new (modulus rows usableRows : Nat) (params : P) (d : TableDesc) (app : String)
    (delta : F) : InitContext F P where
  witness := d.witness
  publicInput := d.publicInput
  constant := d.constant
  selector := d.selector
  rows := rows
  usableRows := usableRows
  delta := delta
  params := params
  modulus := modulus
  applicationId := app

/-- `fill_transcript_initialization_context`, `fill_plonk_constraint_system` with `write`
(crypto3-marshalling, external), and the hash of the transcript (crypto3-hash, external). `B` are the
bytes; nothing depends on how many there are. -/
structure DigestLib (F P B H : Type) where
  modulus : Nat
  context : InitContext F P → List B
  system : Circuit F → List B
  hash : List B → H

/-- The buffer `cv` (transcript_initialization_context.hpp:119-138): the context, and the constraint system
appended to it. -/
def DigestLib.buffer (D : DigestLib F P B H) (c : Circuit F) (d : TableDesc) (rows usableRows : Nat)
    (params : P) (app : String) (delta : F) : List B :=
  let cv := D.context (InitContext.new D.modulus rows usableRows params d app delta)
  cv ++ D.system c

/-- `compute_constraint_system_with_params_hash` (transcript_initialization_context.hpp:99-147) -/
def DigestLib.digest (D : DigestLib F P B H) (c : Circuit F) (d : TableDesc) (rows usableRows : Nat)
    (params : P) (app : String) (delta : F) : H :=
  D.hash (D.buffer c d rows usableRows params app delta)

/-- the application id that the preprocessor passes (preprocessor.hpp:578) -/
def defaultApplicationId : String :=
  "Default application dependent transcript initialization string"

/-- `placeholder_public_preprocessor::process` (preprocessor.hpp:494-611), with the computation of the
digest. -/
def placeholderProcess (D : DigestLib F P B H) (C : CommScheme F S Com Pr Data Obj)
    (T : PlonkTranscript S F H Com) (L : FftLib F) (n fuel : Nat) (d : TableDesc) (c : Circuit F)
    (order : List PlonkVar) (delta : F) (mqc : Nat) (params : P) (t : PlonkTable F) (obj : Obj) :
    Option (PublicData F H Com Data × Obj) :=
  placeholderPreprocess C T L n fuel d c order delta mqc
    (D.digest c d d.rows d.usableRows params defaultApplicationId delta) t obj

/-- `verification_key` (preprocessor.hpp:101-112) -/
structure VerificationKey (H Com : Type) where
  hash : H
  fixedCommitment : Com
deriving DecidableEq

/-- `vk` of the common data (preprocessor.hpp:581, 149) -/
def CommonData.vk (c : CommonData F H Com Data) : VerificationKey H Com := ⟨c.hash, c.fixedCommitment⟩

/-- What marshalling keeps of the common data: the arguments of the second constructor
(preprocessor.hpp:195-207). The parameters of the commitment scheme are not part of the model's common
data. -/
structure MarshalledCommon (F H Com Data : Type) where
  fixedCommitment : Com
  rotations : List (List Int)
  desc : TableDesc
  maxGatesDegree : Nat
  permutationParts : Nat
  lookupParts : Nat
  vk : VerificationKey H Com
  permutedColumns : List Nat
  schemeData : Data
  mqc : Nat

/-- The fields that are written (preprocessor.hpp:138-155). -/
def CommonData.marshalled (c : CommonData F H Com Data) : MarshalledCommon F H Com Data where
  fixedCommitment := c.fixedCommitment
  rotations := c.rotations
  desc := c.desc
  maxGatesDegree := c.maxGatesDegree
  permutationParts := c.permutationParts
  lookupParts := c.lookupParts
  vk := c.vk
  permutedColumns := c.permutedColumns
  schemeData := c.schemeData
  mqc := c.mqc

/-- The constructor for marshalling (preprocessor.hpp:195-229). `lagrange_0` is made from `rows_amount`
values, the first one being one; in the model it is given by its coefficients, as in `permPreprocess`. -/
def MarshalledCommon.build (L : FftLib F) (m : MarshalledCommon F H Com Data) :
    CommonData F H Com Data where
  fixedCommitment := m.fixedCommitment
  rotations := m.rotations
  desc := m.desc
  maxGatesDegree := m.maxGatesDegree
  permutationParts := m.permutationParts
  lookupParts := m.lookupParts
  hash := m.vk.hash
  permutedColumns := m.permutedColumns
  schemeData := m.schemeData
  mqc := m.mqc
  lagrange0 := L.coefficients ((List.replicate m.desc.rows (0 : F)).set 0 1)
  Z := vanishingCoeffs m.desc.rows

/-- `common_data_type::operator==` (preprocessor.hpp:233-249) -/
def CommonData.eqv [DecidableEq H] [DecidableEq Com] [DecidableEq Data]
    (a b : CommonData F H Com Data) : Bool :=
  decide (a.desc = b.desc) && decide (a.rotations = b.rotations) &&
    decide (a.fixedCommitment = b.fixedCommitment) && decide (a.desc.rows = b.desc.rows) &&
    decide (a.lagrange0 = b.lagrange0) && decide (a.Z = b.Z) &&
    decide (a.maxGatesDegree = b.maxGatesDegree) && decide (a.vk = b.vk) &&
    decide (a.permutedColumns = b.permutedColumns) && decide (a.schemeData = b.schemeData) &&
    decide (a.mqc = b.mqc) && decide (a.permutationParts = b.permutationParts) &&
    decide (a.lookupParts = b.lookupParts)

end Crypto3Zk
