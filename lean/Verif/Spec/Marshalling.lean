import Verif.Model.Marshalling

/-!
# The byte format of serialised Groth16 objects

Written down independently of the serialiser: numbers of `k` bytes with the least significant byte
first, sizes as four bytes with the most significant byte first, points by the compressed encoding,
vectors with their length in front.
-/

namespace Crypto3Zk

/-- `n` as `k` bytes, the least significant first -/
def leBytes : Nat → Nat → List UInt8
  | 0, _ => []
  | k + 1, n => UInt8.ofNat (n % 256) :: leBytes k (n / 256)

/-- a size: four bytes, the most significant first -/
def sizeFormat (n : Nat) : List UInt8 := (leBytes 4 n).reverse

variable {F G1 G2 GT : Type}

/-- what is assumed of the encodings of the other libraries: points take 48 and 96 bytes, field
elements are represented by integers of at most 32 (scalars) and 12 times 48 (target group) bytes, and
decoding undoes encoding -/
structure MarshalCodec.Lawful (K : MarshalCodec F G1 G2 GT) : Prop where
  point1_length : ∀ g, (K.point1 g).length = 48
  point2_length : ∀ g, (K.point2 g).length = 96
  unpoint1 : ∀ g, K.unpoint1 (K.point1 g) = g
  unpoint2 : ∀ g, K.unpoint2 (K.point2 g) = g
  fr_lt : ∀ x, K.frNat x < 256 ^ 32
  frDecode : ∀ x, K.frDecode (leBytes 32 (K.frNat x)) = some x
  gt_length : ∀ x, (K.gtNats x).length = 12
  gt_lt : ∀ x, ∀ n ∈ K.gtNats x, n < 256 ^ 48
  gtDecode : ∀ x, K.gtDecode ((K.gtNats x).flatMap (leBytes 48)) = some x

/-- a proof: `A`, `B`, `C` -/
def proofFormat (K : MarshalCodec F G1 G2 GT) (π : Groth16Proof G1 G2) : List UInt8 :=
  K.point1 π.gA ++ K.point2 π.gB ++ K.point1 π.gC

/-- a public input: the number of elements, the elements -/
def inputFormat (K : MarshalCodec F G1 G2 GT) (pi : List F) : List UInt8 :=
  sizeFormat pi.length ++ pi.flatMap fun x => leBytes 32 (K.frNat x)

/-- a sparse vector: the number of entries, the indices, the values, the domain size -/
def sparseFormat {α : Type} (item : α → List UInt8) (v : KcVec α) : List UInt8 :=
  sizeFormat v.entries.length ++ (v.entries.flatMap fun e => sizeFormat e.1) ++
    (v.entries.flatMap fun e => item e.2) ++ sizeFormat v.domainSize

/-- a verification key: target-group element, `γ`, `δ`, first element, sparse vector -/
def vkFormat (K : MarshalCodec F G1 G2 GT) (vk : SparseVK G1 G2 GT) : List UInt8 :=
  (K.gtNats vk.alphaBeta).flatMap (leBytes 48) ++ K.point2 vk.gammaG2 ++ K.point2 vk.deltaG2 ++
    K.point1 vk.first ++ sparseFormat K.point1 vk.rest

/-- a linear combination: the number of terms, then index and coefficient of each -/
def combFormat (K : MarshalCodec F G1 G2 GT) (lc : LinComb F) : List UInt8 :=
  sizeFormat lc.length ++ lc.flatMap fun t => sizeFormat t.index ++ leBytes 32 (K.frNat t.coeff)

/-- the three linear combinations of a constraint -/
def constraintBody (K : MarshalCodec F G1 G2 GT) (k : R1CSConstraint F) : List UInt8 :=
  combFormat K k.a ++ combFormat K k.b ++ combFormat K k.c

/-- a constraint system: the two input sizes, the number of constraints, and each constraint with its
length in bytes in front -/
def systemFormat (K : MarshalCodec F G1 G2 GT) (cs : R1CS F) : List UInt8 :=
  sizeFormat cs.primaryInputSize ++ sizeFormat cs.auxiliaryInputSize ++
    sizeFormat cs.constraints.length ++
    cs.constraints.flatMap fun k => sizeFormat (constraintBody K k).length ++ constraintBody K k

/-- a vector of points: the number, the points -/
def pointsFormat (K : MarshalCodec F G1 G2 GT) (l : List G1) : List UInt8 :=
  sizeFormat l.length ++ l.flatMap K.point1

/-- the knowledge commitment vector, its entries a `G2` and a `G1` point -/
def kcFormat (K : MarshalCodec F G1 G2 GT) (v : KcVec (G2 × G1)) : List UInt8 :=
  sparseFormat (fun e => K.point2 e.1 ++ K.point1 e.2) v

/-- a proving key -/
def pkFormat [Field F] (K : MarshalCodec F G1 G2 GT) (pk : Groth16PK F G1 G2) : List UInt8 :=
  K.point1 pk.alphaG1 ++ K.point1 pk.betaG1 ++ K.point2 pk.betaG2 ++ K.point1 pk.deltaG1 ++
    K.point2 pk.deltaG2 ++ pointsFormat K pk.aQuery ++
    (sizeFormat (kcFormat K pk.bQuery).length ++ kcFormat K pk.bQuery) ++
    pointsFormat K pk.hQuery ++ pointsFormat K pk.lQuery ++ systemFormat K pk.cs

/-- the numbers of a sparse vector fit in four bytes -/
def KcVec.SizesFit {α : Type} (v : KcVec α) : Prop :=
  v.entries.length < 2 ^ 32 ∧ v.domainSize < 2 ^ 32 ∧ ∀ e ∈ v.entries, e.1 < 2 ^ 32

/-- a linear combination as the constructor leaves it (indices strictly increasing), with numbers that
fit in four bytes -/
def LinComb.SizesFit (lc : LinComb F) : Prop :=
  lc.length < 2 ^ 32 ∧ ∀ t ∈ lc, t.index < 2 ^ 32

/-- all numbers of a constraint system fit in four bytes -/
def R1CS.SizesFit (cs : R1CS F) : Prop :=
  cs.primaryInputSize < 2 ^ 32 ∧ cs.auxiliaryInputSize < 2 ^ 32 ∧ cs.constraints.length < 2 ^ 32 ∧
    ∀ k ∈ cs.constraints, k.a.SizesFit ∧ k.b.SizesFit ∧ k.c.SizesFit ∧
      36 * (k.a.length + k.b.length + k.c.length) + 12 < 2 ^ 32

end Crypto3Zk
