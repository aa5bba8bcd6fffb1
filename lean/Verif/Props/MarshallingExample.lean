import Verif.Props.Marshalling

/-!
# C73, C74: a codec, round trips, and a corrupted proving key that is read without an error
-/

namespace Crypto3Zk

instance exMarshalPrime : Fact (Nat.Prime 7) := ⟨by norm_num⟩

/-- the integers modulo 7 as scalars and as all three groups; a scalar is accepted if its bytes are
those of a number below 7 -/
def exMarshalCodec : MarshalCodec (ZMod 7) (ZMod 7) (ZMod 7) (ZMod 7) where
  frNat x := x.val
  gtNats x := x.val :: List.replicate 11 0
  point1 g := leBytes 48 g.val
  point2 g := leBytes 96 g.val
  unpoint1 bs := ((bs.headD 0).toNat : ZMod 7)
  unpoint2 bs := ((bs.headD 0).toNat : ZMod 7)
  frDecode bs := if (bs.headD 0).toNat < 7 ∧ bs = leBytes 32 (bs.headD 0).toNat then
    some ((bs.headD 0).toNat : ZMod 7) else none
  gtDecode bs := if (bs.headD 0).toNat < 7 then some ((bs.headD 0).toNat : ZMod 7) else none

/-- the assumptions on the other libraries can be met -/
theorem exMarshalCodec_lawful : exMarshalCodec.Lawful where
  point1_length g := leBytes_length _ _
  point2_length g := leBytes_length _ _
  unpoint1 := by decide +kernel
  unpoint2 := by decide +kernel
  fr_lt x := by
    have : x.val < 7 := ZMod.val_lt x
    exact this.trans_le (by norm_num)
  frDecode := by decide +kernel
  gt_length x := by simp [exMarshalCodec]
  gt_lt := by decide +kernel
  gtDecode := by decide +kernel

def exMarshalSort : List (LinearTerm (ZMod 7)) → List (LinearTerm (ZMod 7)) :=
  List.insertionSort fun s t => s.index ≤ t.index

/-- a proving key for `x₁ · x₁ = x₂` and `x₂ · 1 = 3`, with all queries non-empty -/
def exMarshalPK : Groth16PK (ZMod 7) (ZMod 7) (ZMod 7) where
  alphaG1 := 1
  betaG1 := 2
  betaG2 := 3
  deltaG1 := 4
  deltaG2 := 5
  aQuery := [6, 5]
  bQuery := ⟨3, [(0, (1, 2)), (2, (3, 4))]⟩
  hQuery := [2]
  lQuery := [3]
  cs := ⟨1, 1, [⟨[⟨1, 1⟩], [⟨1, 1⟩], [⟨2, 1⟩]⟩, ⟨[⟨2, 1⟩], [⟨0, 1⟩], [⟨0, 3⟩]⟩]⟩

/-- the hypotheses of the round trip of a proving key are met by it -/
example : ∃ data, serializePK exMarshalCodec exMarshalPK = some data ∧
    readPK exMarshalSort exMarshalCodec data 0 = some (.success, exMarshalPK) :=
  C73_pk_round_trip exMarshalSort insertionSort_isIndexSort exMarshalCodec exMarshalCodec_lawful exMarshalPK
    (by decide) (by simp [KcVec.SizesFit, exMarshalPK]) (by decide) (by decide) (by decide)
    (by simp [R1CS.SizesFit, LinComb.SizesFit, exMarshalPK])
    (by decide)

/-- those of the verifier input, with a public input and a sparse key -/
example : ∃ d1 d2 d3, serializeProof exMarshalCodec ⟨1, 2, 3⟩ = some d1 ∧
    serializeInput exMarshalCodec [4, 5] = some d2 ∧
    serializeVK exMarshalCodec ⟨1, 2, 3, 4, ⟨2, [(0, 5), (1, 6)]⟩⟩ = some d3 ∧
    readVerifierInput exMarshalCodec (d1 ++ d2 ++ d3) 0 (d1 ++ d2 ++ d3).length =
      some (.success, some (⟨1, 2, 3, 4, ⟨2, [(0, 5), (1, 6)]⟩⟩, [4, 5], ⟨1, 2, 3⟩)) :=
  C73_verifier_input_round_trip exMarshalCodec exMarshalCodec_lawful _ _ _ (by decide) (by simp [KcVec.SizesFit])

/-- a truncated public input is reported, not read past its end -/
example : readInput exMarshalCodec [0, 0, 0, 1] 0 4 = some (.notEnoughData, []) := by decide +kernel

/-- a verifier input that ends right after the proof -/
example : readVerifierInput exMarshalCodec (List.replicate 192 0) 0 (List.replicate 192 (0 : UInt8)).length =
    none :=
  C74_verifier_input_unsafe exMarshalCodec (List.replicate 192 0)
    (by rw [List.length_replicate]) (by rw [List.length_replicate]; norm_num)

deriving instance DecidableEq for R1CSConstraint
deriving instance DecidableEq for R1CS

/-- the bytes of the constraint system of `exMarshalPK` -/
def exSystemBytes : List UInt8 := systemFormat exMarshalCodec exMarshalPK.cs

/-- the same with the first coefficient of the first constraint replaced by one that no field element
has -/
def exCorruptedBytes : List UInt8 := exSystemBytes.set 24 255

/-- **C74**, finding: a malformed coefficient is reported as an error by the function that reads the
constraint, but the loop over the constraints forgets it: the constraint system is returned with status
success and an empty constraint, which every assignment satisfies, in the place of the damaged one. -/
theorem C74_malformed_constraint_dropped :
    readConstraint exMarshalSort exMarshalCodec exCorruptedBytes 16 = some (.invalidMsgData, ⟨[], [], []⟩) ∧
    readSystem exMarshalSort exMarshalCodec exCorruptedBytes 0 =
      some (.success, ⟨1, 1, [⟨[], [], []⟩, ⟨[⟨2, 1⟩], [⟨0, 1⟩], [⟨0, 3⟩]⟩]⟩) := by
  decide +kernel

end Crypto3Zk
