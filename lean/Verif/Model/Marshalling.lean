import Verif.Model.Groth16
import Verif.Model.SizeT

/-!
# Serialisation of Groth16 objects (`r1cs_gg_ppzksnark/marshalling.hpp`)

The header names `linear_term`, `linear_combination` and `variable` of the enclosing namespace, which
at this commit are in `math`; it is read with that correction. All line numbers are those of
`snark/systems/ppzksnark/r1cs_gg_ppzksnark/marshalling.hpp`.

Bytes are `UInt8`. Iterators are offsets into one byte vector. External and therefore parameters: the
compressed encoding of curve points (`curve_element_serializer`) and the decoding of field elements
(`bincode::field::field_element_from_bytes`); see `MarshalCodec`.

A deserialiser returns `none` if it reads a byte outside the vector, and otherwise the status it sets
together with the value it returns. Forming an iterator outside the vector is not counted, only
reading through it. Allocation failures are not modelled.
-/

namespace Crypto3Zk

/-- `status_type` of the marshalling library, as far as the header uses it (lines 127-138) -/
inductive MStatus
  | success
  | notEnoughData
  | invalidMsgData
deriving DecidableEq, Repr

/-- `g1_byteblob_size` (line 111): 48 for bls12-381 -/
def g1Bytes : Nat := 48
/-- `g2_byteblob_size` (line 112) -/
def g2Bytes : Nat := 2 * 48
/-- `fp_byteblob_size` (lines 113-114): `381 / 8`, rounded up -/
def fpBytes : Nat := 48
/-- `gt_byteblob_size` (line 115) -/
def gtBytes : Nat := 2 * 3 * 2 * fpBytes
/-- `fr_byteblob_size` (lines 116-118): `255 / 8`, rounded up -/
def frBytes : Nat := 32
/-- `std_size_t_byteblob_size` (line 110) -/
def sizeBytes : Nat := 4
/-- `linear_term_byteblob_size` (line 119) -/
def termBytes : Nat := sizeBytes + frBytes
/-- `g2g1_element_kc_byteblob_size` (line 120) -/
def kcBytes : Nat := g2Bytes + g1Bytes

/-- what the header takes from other libraries: the integer representing a field element and the
twelve integers of an element of the target group (`.data`), the compressed encodings of points, and
the decoders. `octets_to_g1_point` always returns a point. -/
structure MarshalCodec (F G1 G2 GT : Type) where
  frNat : F → Nat
  gtNats : GT → List Nat
  point1 : G1 → List UInt8
  point2 : G2 → List UInt8
  unpoint1 : List UInt8 → G1
  unpoint2 : List UInt8 → G2
  frDecode : List UInt8 → Option F
  gtDecode : List UInt8 → Option GT

/-- a verification key (r1cs_gg_ppzksnark/verification_key.hpp:47-54) with the sparse vector inside
the accumulation vector kept -/
structure SparseVK (G1 G2 GT : Type) where
  alphaBeta : GT
  gammaG2 : G2
  deltaG2 : G2
  first : G1
  rest : KcVec G1

/-! ## Serialiser -/

/-- the output vector and the write iterator (lines 922, 940) -/
structure MWriter where
  buf : List UInt8
  pos : Nat

/-- copy `bs` to the write iterator and advance it by `adv`; `none` if that leaves the vector (lines 932-933) -/
def MWriter.put (w : MWriter) (bs : List UInt8) (adv : Nat) : Option MWriter :=
  if w.pos + bs.length ≤ w.buf.length ∧ w.pos + adv ≤ w.buf.length then
    some ⟨w.buf.take w.pos ++ bs ++ w.buf.drop (w.pos + bs.length), w.pos + adv⟩
  else none

/-- `multiprecision::export_bits(n, it, 8, false)` (external): as many bytes as the number has, at
least one, the least significant first -/
def exportBytes (n : Nat) : List UInt8 :=
  (List.range (n.log2 / 8 + 1)).map fun i => UInt8.ofNat (n / 256 ^ i % 256)

/-- `field_type_process` for a prime field of `chunks` bytes (lines 918-934) -/
def putField (n chunks : Nat) (w : MWriter) : Option MWriter := w.put (exportBytes n) chunks

/-- `field_type_process` for the target group (lines 936-949): the components in order -/
def putGT (ns : List Nat) (w : MWriter) : Option MWriter :=
  ns.foldlM (fun w n => putField n fpBytes w) w

/-- `g1_group_type_process`, `g2_group_type_process` (lines 951-973) -/
def putPoint (bs : List UInt8) (w : MWriter) : Option MWriter := w.put bs bs.length

/-- `pack_to<big_octet_big_bit, 32, 8>` of one number (external): the low 32 bits, most significant
byte first -/
def packSize (n : Nat) : List UInt8 :=
  [UInt8.ofNat (n / 2 ^ 24 % 256), UInt8.ofNat (n / 2 ^ 16 % 256), UInt8.ofNat (n / 2 ^ 8 % 256),
    UInt8.ofNat (n % 256)]

/-- `std_size_t_process` (lines 975-985) -/
def putSize (n : Nat) (w : MWriter) : Option MWriter := w.put (packSize n) sizeBytes

section

variable {F G1 G2 GT : Type}

/-- `g1_sparse_vector_process` (lines 987-1010) -/
def putSparse (K : MarshalCodec F G1 G2 GT) (v : KcVec G1) (w : MWriter) : Option MWriter := do
  let w ← putSize v.entries.length w
  let w ← v.entries.foldlM (fun w e => putSize e.1 w) w
  let w ← v.entries.foldlM (fun w e => putPoint (K.point1 e.2) w) w
  putSize v.domainSize w

/-- `linear_term_process` (lines 1021-1028) -/
def putTerm (K : MarshalCodec F G1 G2 GT) (t : LinearTerm F) (w : MWriter) : Option MWriter := do
  let w ← putSize t.index w
  putField (K.frNat t.coeff) frBytes w

/-- `linear_combination_process` (lines 1030-1039) -/
def putComb (K : MarshalCodec F G1 G2 GT) (lc : LinComb F) (w : MWriter) : Option MWriter := do
  let w ← putSize lc.length w
  lc.foldlM (fun w t => putTerm K t w) w

/-- `get_r1cs_constraint_byteblob_size` (lines 1041-1050) -/
def constraintBytes (k : R1CSConstraint F) : Nat :=
  k.a.length * (sizeBytes + frBytes) + sizeBytes + k.b.length * (sizeBytes + frBytes) + sizeBytes +
    k.c.length * (sizeBytes + frBytes) + sizeBytes

/-- `r1cs_constraint_process` (lines 1052-1060) -/
def putConstraint (K : MarshalCodec F G1 G2 GT) (k : R1CSConstraint F) (w : MWriter) :
    Option MWriter := do
  let w ← putSize (constraintBytes k) w
  let w ← putComb K k.a w
  let w ← putComb K k.b w
  putComb K k.c w

/-- `r1cs_constraint_system_process` (lines 1062-1073) -/
def putSystem (K : MarshalCodec F G1 G2 GT) (cs : R1CS F) (w : MWriter) : Option MWriter := do
  let w ← putSize cs.primaryInputSize w
  let w ← putSize cs.auxiliaryInputSize w
  let w ← putSize cs.constraints.length w
  cs.constraints.foldlM (fun w k => putConstraint K k w) w

/-- `g2g1_element_kc_process` (lines 1075-1083) -/
def putKc (K : MarshalCodec F G1 G2 GT) (e : G2 × G1) (w : MWriter) : Option MWriter := do
  let w ← putPoint (K.point2 e.1) w
  putPoint (K.point1 e.2) w

/-- `get_g2g1_knowledge_commitment_vector_size` (lines 1085-1092) -/
def kcVecBytes (v : KcVec (G2 × G1)) : Nat :=
  (2 + v.entries.length) * sizeBytes + v.entries.length * (g2Bytes + g1Bytes)

/-- `g2g1_knowledge_commitment_vector_process` (lines 1094-1115) -/
def putKcVec (K : MarshalCodec F G1 G2 GT) (v : KcVec (G2 × G1)) (w : MWriter) : Option MWriter := do
  let w ← putSize (kcVecBytes v) w
  let w ← putSize v.entries.length w
  let w ← v.entries.foldlM (fun w e => putSize e.1 w) w
  let w ← v.entries.foldlM (fun w e => putKc K e.2 w) w
  putSize v.domainSize w

/-- a vector of points with its length in front (lines 1140-1144, 1148-1152, 1154-1158) -/
def putPoints (K : MarshalCodec F G1 G2 GT) (l : List G1) (w : MWriter) : Option MWriter := do
  let w ← putSize l.length w
  l.foldlM (fun w g => putPoint (K.point1 g) w) w

/-- the size of the output for a proving key (lines 1119-1128) -/
def provingKeyBytes [Field F] (pk : Groth16PK F G1 G2) : Nat :=
  (3 * g1Bytes + 2 * g2Bytes + pk.aQuery.length * g1Bytes + kcVecBytes pk.bQuery +
    pk.hQuery.length * g1Bytes + pk.lQuery.length * g1Bytes + 2 * sizeBytes +
    (pk.cs.constraints.map constraintBytes).sum) * 2

/-- `process(proving_key)` (lines 1117-1163) -/
def serializePK [Field F] (K : MarshalCodec F G1 G2 GT) (pk : Groth16PK F G1 G2) :
    Option (List UInt8) := do
  let w : MWriter := ⟨List.replicate (provingKeyBytes pk) 0, 0⟩
  let w ← putPoint (K.point1 pk.alphaG1) w
  let w ← putPoint (K.point1 pk.betaG1) w
  let w ← putPoint (K.point2 pk.betaG2) w
  let w ← putPoint (K.point1 pk.deltaG1) w
  let w ← putPoint (K.point2 pk.deltaG2) w
  let w ← putPoints K pk.aQuery w
  let w ← putKcVec K pk.bQuery w
  let w ← putPoints K pk.hQuery w
  let w ← putPoints K pk.lQuery w
  let w ← putSystem K pk.cs w
  pure w.buf

/-- `process(verification_key)` (lines 1165-1208); `arity` of the target group is 12 -/
def serializeVK (K : MarshalCodec F G1 G2 GT) (vk : SparseVK G1 G2 GT) : Option (List UInt8) := do
  let icSize := 1 + vk.rest.entries.length
  let sparseBytes := (2 + icSize) * sizeBytes + icSize * g1Bytes
  let accBytes := sparseBytes + g1Bytes
  let size := fpBytes * 12 + g2Bytes + g2Bytes + accBytes
  let w : MWriter := ⟨List.replicate size 0, 0⟩
  let w ← putGT (K.gtNats vk.alphaBeta) w
  let w ← putPoint (K.point2 vk.gammaG2) w
  let w ← putPoint (K.point2 vk.deltaG2) w
  -- `g1_accumulation_vector_process` (lines 1012-1019)
  let w ← putPoint (K.point1 vk.first) w
  let w ← putSparse K vk.rest w
  pure w.buf

/-- `process(primary_input)` (lines 1210-1234) -/
def serializeInput (K : MarshalCodec F G1 G2 GT) (pi : List F) : Option (List UInt8) := do
  let w : MWriter := ⟨List.replicate (sizeBytes + pi.length * frBytes) 0, 0⟩
  let w ← putSize pi.length w
  let w ← pi.foldlM (fun w x => putField (K.frNat x) frBytes w) w
  pure w.buf

/-- `process(proof)` (lines 1236-1252) -/
def serializeProof (K : MarshalCodec F G1 G2 GT) (π : Groth16Proof G1 G2) : Option (List UInt8) := do
  let w : MWriter := ⟨List.replicate (g1Bytes + g2Bytes + g1Bytes) 0, 0⟩
  let w ← putPoint (K.point1 π.gA) w
  let w ← putPoint (K.point2 π.gB) w
  let w ← putPoint (K.point1 π.gC) w
  pure w.buf

/-! ## Deserialiser -/

/-- the bytes `[b, b + k)` of the vector; `none` if they are not all inside
(the range between the read iterators, lines 125-135) -/
def readBytes (data : List UInt8) (b k : Nat) : Option (List UInt8) :=
  if b + k ≤ data.length then some ((data.drop b).take k) else none

/-- `pack_from<big_octet_big_bit, 8, 32>` (external): the number with these bytes, most significant
first -/
def unpackSize (bs : List UInt8) : Nat := bs.foldl (fun n b => 256 * n + b.toNat) 0

/-- `std_size_t_process` (lines 465-491) on `[b, e)` -/
def readSize (data : List UInt8) (b e : Nat) : Option (MStatus × Nat) :=
  if subSize e b < sizeBytes then some (.notEnoughData, 0)
  else do
    let bs ← readBytes data b sizeBytes
    pure (.success, unpackSize bs)

/-- `field_type_process` for the scalar field (lines 122-144); on an error the value is zero -/
def readFr [Zero F] (K : MarshalCodec F G1 G2 GT) (data : List UInt8) (b : Nat) :
    Option (MStatus × F) := do
  let bs ← readBytes data b frBytes
  match K.frDecode bs with
  | none => pure (.invalidMsgData, 0)
  | some x => pure (.success, x)

/-- `g1_group_type_process` (lines 170-185) -/
def readG1 (K : MarshalCodec F G1 G2 GT) (data : List UInt8) (b : Nat) : Option G1 := do
  let bs ← readBytes data b g1Bytes
  pure (K.unpoint1 bs)

/-- `g2_group_type_process` (lines 187-202) -/
def readG2 (K : MarshalCodec F G1 G2 GT) (data : List UInt8) (b : Nat) : Option G2 := do
  let bs ← readBytes data b g2Bytes
  pure (K.unpoint2 bs)

/-- `linear_term_process` (lines 204-227) -/
def readTerm [Zero F] (K : MarshalCodec F G1 G2 GT) (data : List UInt8) (b : Nat) :
    Option (MStatus × LinearTerm F) := do
  let (st, index) ← readSize data b (b + sizeBytes)
  if st ≠ .success then pure (st, ⟨0, 0⟩)
  else
    let (st, coeff) ← readFr K data (b + sizeBytes)
    pure (st, ⟨index, coeff⟩)

/-- the loop of `linear_combination_process` (lines 246-255) -/
def readTerms [Zero F] (K : MarshalCodec F G1 G2 GT) (data : List UInt8) :
    Nat → Nat → Option (MStatus × List (LinearTerm F))
  | _, 0 => pure (.success, [])
  | b, k + 1 => do
    let (st, t) ← readTerm K data b
    if st ≠ .success then pure (st, [])
    else
      let (st, ts) ← readTerms K data (b + termBytes) k
      if st ≠ .success then pure (st, []) else pure (st, t :: ts)

/-- `linear_combination_process` (lines 229-258): the terms go through the constructor that sorts and
merges them -/
def readComb [Field F] (srt : List (LinearTerm F) → List (LinearTerm F)) (K : MarshalCodec F G1 G2 GT)
    (data : List UInt8) (b : Nat) : Option (MStatus × LinComb F) := do
  let (st, count) ← readSize data b (b + sizeBytes)
  if st ≠ .success then pure (st, [])
  else
    let (st, terms) ← readTerms K data (b + sizeBytes) count
    if st ≠ .success then pure (st, []) else pure (st, LinComb.ofTerms srt terms)

/-- `r1cs_constraint_process` (lines 260-314) -/
def readConstraint [Field F] (srt : List (LinearTerm F) → List (LinearTerm F))
    (K : MarshalCodec F G1 G2 GT) (data : List UInt8) (b : Nat) :
    Option (MStatus × R1CSConstraint F) := do
  let (st, na) ← readSize data b (b + sizeBytes)
  if st ≠ .success then pure (st, ⟨[], [], []⟩) else
  let aBytes := na * termBytes + sizeBytes
  let (st, a) ← readComb srt K data b
  if st ≠ .success then pure (st, ⟨[], [], []⟩) else
  let (st, nb) ← readSize data (b + aBytes) (b + aBytes + sizeBytes)
  if st ≠ .success then pure (st, ⟨[], [], []⟩) else
  let bBytes := nb * termBytes + sizeBytes
  let (st, b') ← readComb srt K data (b + aBytes)
  if st ≠ .success then pure (st, ⟨[], [], []⟩) else
  let (st, _) ← readSize data (b + aBytes + bBytes) (b + aBytes + bBytes + sizeBytes)
  if st ≠ .success then pure (st, ⟨[], [], []⟩) else
  let (st, c) ← readComb srt K data (b + aBytes + bBytes)
  if st ≠ .success then pure (st, ⟨[], [], []⟩) else
  pure (st, ⟨a, b', c⟩)

/-- the loop of `r1cs_constraint_system_process` (lines 349-362). The status is not looked at in the
loop: the one left behind is the one set last, which is `st` if there are no constraints. -/
def readConstraints [Field F] (srt : List (LinearTerm F) → List (LinearTerm F))
    (K : MarshalCodec F G1 G2 GT) (data : List UInt8) :
    MStatus → Nat → Nat → Option (MStatus × List (R1CSConstraint F))
  | st, _, 0 => pure (st, [])
  | _, b, k + 1 => do
    let (_, size) ← readSize data b (b + sizeBytes)
    let (st, c) ← readConstraint srt K data (b + sizeBytes)
    let (st, cs) ← readConstraints srt K data st (b + sizeBytes + size) k
    pure (st, c :: cs)

/-- `r1cs_constraint_system_process` (lines 316-372) -/
def readSystem [Field F] (srt : List (LinearTerm F) → List (LinearTerm F))
    (K : MarshalCodec F G1 G2 GT) (data : List UInt8) (b : Nat) : Option (MStatus × R1CS F) := do
  let (st, primary) ← readSize data b (b + sizeBytes)
  if st ≠ .success then pure (st, ⟨0, 0, []⟩) else
  let (st, auxiliary) ← readSize data (b + sizeBytes) (b + 2 * sizeBytes)
  if st ≠ .success then pure (st, ⟨0, 0, []⟩) else
  let (st, count) ← readSize data (b + 2 * sizeBytes) (b + 3 * sizeBytes)
  if st ≠ .success then pure (st, ⟨0, 0, []⟩) else
  let (st, cs) ← readConstraints srt K data st (b + 3 * sizeBytes) count
  pure (st, ⟨primary, auxiliary, cs⟩)

/-- `g2g1_element_kc_process` (lines 374-391) -/
def readKc (K : MarshalCodec F G1 G2 GT) (data : List UInt8) (b : Nat) : Option (G2 × G1) := do
  let g ← readG2 K data b
  let h ← readG1 K data (b + g2Bytes)
  pure (g, h)

/-- the loops that read indices (lines 419-427, 525-533); the length check of `std_size_t_process`
on `[b, b + 4)` is kept -/
def readSizes (data : List UInt8) : Nat → Nat → Option (MStatus × List Nat)
  | _, 0 => pure (.success, [])
  | b, k + 1 => do
    let (st, x) ← readSize data b (b + sizeBytes)
    if st ≠ .success then pure (st, [])
    else
      let (st, xs) ← readSizes data (b + sizeBytes) k
      if st ≠ .success then pure (st, []) else pure (st, x :: xs)

/-- `k` consecutive items of `size` bytes from `b` on (lines 431-441, 537-547, 689-693, 713-717,
725-729), none of which sets an error status -/
def readMany {α : Type} (item : Nat → Option α) (size : Nat) : Nat → Nat → Option (List α)
  | _, 0 => pure []
  | b, k + 1 => do
    let x ← item b
    let xs ← readMany item size (b + size) k
    pure (x :: xs)

/-- `g2g1_knowledge_commitment_vector_process` (lines 393-463) on `[b, e)` -/
def readKcVec (K : MarshalCodec F G1 G2 GT) (data : List UInt8) (b e : Nat) :
    Option (MStatus × KcVec (G2 × G1)) := do
  if subSize e b < sizeBytes then pure (.notEnoughData, ⟨0, []⟩) else
  let (st, count) ← readSize data b (b + sizeBytes)
  if st ≠ .success then pure (st, ⟨0, []⟩) else
  let (st, indices) ← readSizes data (b + sizeBytes) count
  if st ≠ .success then pure (st, ⟨0, []⟩) else
  let values ← readMany (readKc K data) kcBytes (b + sizeBytes + count * sizeBytes) count
  let d := b + sizeBytes + count * sizeBytes + count * kcBytes
  let (st, domain) ← readSize data d (d + sizeBytes)
  if st ≠ .success then pure (st, ⟨0, []⟩) else
  pure (st, ⟨domain, indices.zip values⟩)

/-- `g1_sparse_vector_process` (lines 493-569) on `[b, e)` -/
def readSparse (K : MarshalCodec F G1 G2 GT) (data : List UInt8) (b e : Nat) :
    Option (MStatus × KcVec G1) := do
  if subSize e b < sizeBytes then pure (.notEnoughData, ⟨0, []⟩) else
  let (st, count) ← readSize data b (b + sizeBytes)
  if st ≠ .success then pure (st, ⟨0, []⟩) else
  if subSize e b < sizeBytes + count * sizeBytes + count * g1Bytes + sizeBytes then
    pure (.notEnoughData, ⟨0, []⟩) else
  let (st, indices) ← readSizes data (b + sizeBytes) count
  if st ≠ .success then pure (st, ⟨0, []⟩) else
  let values ← readMany (readG1 K data) g1Bytes (b + sizeBytes + count * sizeBytes) count
  let d := b + sizeBytes + count * sizeBytes + count * g1Bytes
  let (st, domain) ← readSize data d (d + sizeBytes)
  if st ≠ .success then pure (st, ⟨0, []⟩) else
  pure (st, ⟨domain, indices.zip values⟩)

/-- `g1_accumulation_vector_process` (lines 571-600) on `[b, e)`; an error returns an empty vector,
whose first element is the group's default value -/
def readAcc [Zero G1] (K : MarshalCodec F G1 G2 GT) (data : List UInt8) (b e : Nat) :
    Option (MStatus × G1 × KcVec G1) := do
  if subSize e b < g1Bytes then pure (.notEnoughData, 0, ⟨0, []⟩) else
  let first ← readG1 K data b
  let (st, rest) ← readSparse K data (b + g1Bytes) e
  if st ≠ .success then pure (st, 0, ⟨0, []⟩) else
  pure (st, first, rest)

/-- `verification_key_process` (lines 602-654) on `[b, e)`; an error returns a default key, here
`none` inside the pair -/
def readVK [Zero G1] (K : MarshalCodec F G1 G2 GT) (data : List UInt8) (b e : Nat) :
    Option (MStatus × Option (SparseVK G1 G2 GT)) := do
  if subSize e b < gtBytes + g2Bytes + g2Bytes then pure (.notEnoughData, none) else
  let bs ← readBytes data b gtBytes
  match K.gtDecode bs with
  | none => pure (.invalidMsgData, none)
  | some alphaBeta =>
    let gammaG2 ← readG2 K data (b + gtBytes)
    let deltaG2 ← readG2 K data (b + gtBytes + g2Bytes)
    let (st, first, rest) ← readAcc K data (b + gtBytes + g2Bytes + g2Bytes) e
    if st ≠ .success then pure (st, none) else
    pure (st, some ⟨alphaBeta, gammaG2, deltaG2, first, rest⟩)

/-- `proving_key_process` (lines 656-738) on `[b, e)`; the end is only passed on to functions that do
not look at it. The status is whatever the last call left. -/
def readPK [Field F] (srt : List (LinearTerm F) → List (LinearTerm F)) (K : MarshalCodec F G1 G2 GT)
    (data : List UInt8) (b : Nat) : Option (MStatus × Groth16PK F G1 G2) := do
  let alphaG1 ← readG1 K data b
  let b := b + g1Bytes
  let betaG1 ← readG1 K data b
  let b := b + g1Bytes
  let betaG2 ← readG2 K data b
  let b := b + g2Bytes
  let deltaG1 ← readG1 K data b
  let b := b + g1Bytes
  let deltaG2 ← readG2 K data b
  let b := b + g2Bytes
  let (_, nA) ← readSize data b (b + sizeBytes)
  let b := b + sizeBytes
  let aQuery ← readMany (readG1 K data) g1Bytes b nA
  let b := b + nA * g1Bytes
  let (_, bBytes) ← readSize data b (b + sizeBytes)
  let b := b + sizeBytes
  let (_, bQuery) ← readKcVec K data b (b + bBytes)
  let b := b + bBytes
  let (_, nH) ← readSize data b (b + sizeBytes)
  let b := b + sizeBytes
  let hQuery ← readMany (readG1 K data) g1Bytes b nH
  let b := b + nH * g1Bytes
  let (_, nL) ← readSize data b (b + sizeBytes)
  let b := b + sizeBytes
  let lQuery ← readMany (readG1 K data) g1Bytes b nL
  let b := b + nL * g1Bytes
  let (st, cs) ← readSystem srt K data b
  pure (st, ⟨alphaG1, betaG1, betaG2, deltaG1, deltaG2, aQuery, bQuery, hQuery, lQuery, cs⟩)

/-- the loop of `primary_input_process` (lines 770-779) -/
def readFrs [Zero F] (K : MarshalCodec F G1 G2 GT) (data : List UInt8) :
    Nat → Nat → Option (MStatus × List F)
  | _, 0 => pure (.success, [])
  | b, k + 1 => do
    let (st, x) ← readFr K data b
    if st ≠ .success then pure (st, [])
    else
      let (st, xs) ← readFrs K data (b + frBytes) k
      if st ≠ .success then pure (st, []) else pure (st, x :: xs)

/-- `primary_input_process` (lines 740-782) on `[b, e)` -/
def readInput [Zero F] (K : MarshalCodec F G1 G2 GT) (data : List UInt8) (b e : Nat) :
    Option (MStatus × List F) := do
  if subSize e b < sizeBytes then pure (.notEnoughData, []) else
  let (st, count) ← readSize data b (b + sizeBytes)
  if st ≠ .success then pure (st, []) else
  if subSize e b < sizeBytes + count * frBytes then pure (.notEnoughData, []) else
  readFrs K data (b + sizeBytes) count

/-- `proof_process` (lines 784-827) on `[b, e)`; an error returns a default proof, here `none` -/
def readProof (K : MarshalCodec F G1 G2 GT) (data : List UInt8) (b e : Nat) :
    Option (MStatus × Option (Groth16Proof G1 G2)) := do
  if subSize e b < g1Bytes + g2Bytes + g1Bytes then pure (.notEnoughData, none) else
  let gA ← readG1 K data b
  let gB ← readG2 K data (b + g1Bytes)
  let gC ← readG1 K data (b + g1Bytes + g2Bytes)
  pure (.success, some ⟨gA, gB, gC⟩)

/-- `verifier_input_process` (lines 829-891) on `[b, e)`; an error returns default values, here
`none` -/
def readVerifierInput [Zero F] [Zero G1] (K : MarshalCodec F G1 G2 GT) (data : List UInt8)
    (b e : Nat) :
    Option (MStatus × Option (SparseVK G1 G2 GT × List F × Groth16Proof G1 G2)) := do
  let proofBytes := g1Bytes + g2Bytes + g1Bytes
  if subSize e b < proofBytes then pure (.notEnoughData, none) else
  let (st, π) ← readProof K data b (b + proofBytes)
  if st ≠ .success then pure (st, none) else
  let (st, count) ← readSize data (b + proofBytes) (b + proofBytes + sizeBytes)
  let piBytes := sizeBytes + frBytes * count
  if st ≠ .success then pure (st, none) else
  let (st, pi) ← readInput K data (b + proofBytes) (b + proofBytes + piBytes)
  if st ≠ .success then pure (st, none) else
  let (st, vk) ← readVK K data (b + proofBytes + piBytes) e
  if st ≠ .success then pure (st, none) else
  match vk, π with
  | some vk, some π => pure (st, some (vk, pi, π))
  | _, _ => pure (st, none)

end

end Crypto3Zk
