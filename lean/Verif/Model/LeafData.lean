import Verif.Model.FRI

/-!
# The leaves of the Merkle trees as data

Models `field_element_consumer` (detail/field_element_consumer.hpp) and the places where FRI fills it
(commitments/detail/polynomial/basic_fri.hpp). The leaves of `Model/FRI.lean` are lists of field
elements; here they are the vectors that are really hashed, of field elements (a hash whose word is a
field element) or of bytes.
-/

namespace Crypto3Zk

variable {F W Tree Root Path : Type}

/-- How one field element is stored (field_element_consumer.hpp:48-70): as itself, or as the
`Marshalling::length()` bytes written by `Marshalling(field_element).write` (crypto3-marshalling,
external). `zero` is a value-initialised entry of the vector. -/
structure LeafCodec (F W : Type) where
  len : Nat
  enc : F → List W
  zero : W

/-- `field_element_consumer` (field_element_consumer.hpp:47-104): the vector it inherits from, and the
distance of `current_iter` from its beginning. `none` is an iterator into some other vector: the
implicit copy constructor copies the iterator together with the vector. -/
structure LeafConsumer (W : Type) where
  data : List W
  cursor : Option Nat

namespace LeafConsumer

/-- `reset_cursor` (field_element_consumer.hpp:97-100) -/
def reset (k : LeafConsumer W) : LeafConsumer W := { k with cursor := some 0 }

/-- the constructor from a size (field_element_consumer.hpp:76-79) -/
def new (C : LeafCodec F W) (size : Nat) : LeafConsumer W :=
  reset ⟨List.replicate (size * C.len) C.zero, none⟩

/-- the implicit copy constructor: the copy's iterator points into the original (field_element_consumer.hpp:48) -/
def copy (k : LeafConsumer W) : LeafConsumer W := ⟨k.data, none⟩

/-- `consume` (field_element_consumer.hpp:87-95). A failed assertion, and writing through an iterator
of another vector, is `none`. -/
def consume (C : LeafCodec F W) (k : LeafConsumer W) (x : F) : Option (LeafConsumer W) := do
  let i ← k.cursor
  if i + C.len ≤ k.data.length then
    some ⟨k.data.take i ++ C.enc x ++ k.data.drop (i + C.len), some (i + C.len)⟩
  else none

/-- the constructor from one element, through the default constructor
(field_element_consumer.hpp:73-74, 81-84) -/
def ofElement (C : LeafCodec F W) (x : F) : Option (LeafConsumer W) := (new C 1).consume C x

end LeafConsumer

/-- One call of a modifying method (field_element_consumer.hpp:76-95). -/
inductive LeafOp (F : Type)
  | consume (x : F)
  | reset

/-- the effect of one call (field_element_consumer.hpp:87-100) -/
def LeafOp.apply (C : LeafCodec F W) (k : LeafConsumer W) : LeafOp F → Option (LeafConsumer W)
  | .consume x => k.consume C x
  | .reset => some k.reset

/-- Filling one leaf of `y_data` (basic_fri.hpp:375-387, 461-474): the entry of the vector is a copy of
one prototype, its cursor is reset, and the values are consumed. -/
def proverLeaf (C : LeafCodec F W) (size : Nat) (values : List F) : Option (List W) := do
  let k ← values.foldlM (LeafConsumer.consume C) (LeafConsumer.new C size).copy.reset
  some k.data

/-- Filling `leaf_data` of the verifier (basic_fri.hpp:994-1001, 1048-1054). -/
def verifierLeaf (C : LeafCodec F W) (size : Nat) (values : List F) : Option (List W) := do
  let k ← values.foldlM (LeafConsumer.consume C) (LeafConsumer.new C size)
  some k.data

/-- `y_data` (basic_fri.hpp:372-405, 457-492): leaf `x` has room for `coset_size * list_size` values,
and gets, polynomial by polynomial, the values on the coset of `x`. The code consumes the values as it
computes the indices. -/
def friLeafData (C : LeafCodec F W) (vs : List (List F)) (N step : Nat) : Option (List (List W)) :=
  (List.range (N / 2 ^ step)).mapM fun x => do
    let ix ← cosetIndices x N step
    let parts ← vs.mapM fun v => leafValues v ix
    proverLeaf C (2 ^ step * vs.length) parts.flatten

/-- `precommit` of a batch (basic_fri.hpp:433-524), with the vectors that are hashed -/
def friPrecommitBatchData [Field F] (C : LeafCodec F W) (L : FftLib F) (M : MerkleLib W Tree Root Path)
    (fs : List (FriPoly F)) (D : FriDomain F) (step : Nat) : Option Tree := do
  let vs ← fs.mapM fun f => f.on L D
  let leaves ← friLeafData C vs D.size step
  some (M.build leaves)

/-- `precommit` of one polynomial (basic_fri.hpp:353-431), with the vectors that are hashed -/
def friPrecommitData [Field F] (C : LeafCodec F W) (L : FftLib F) (M : MerkleLib W Tree Root Path)
    (f : FriPoly F) (D : FriDomain F) (step : Nat) : Option (Tree × FriPoly F) := do
  let v ← f.on L D
  let leaves ← friLeafData C [v] D.size step
  some (M.build leaves, match f with | .coeff c => .coeff c | .dfs _ => .dfs v)

/-- The checks of the initial proofs of one query (basic_fri.hpp:987-1006), with the vectors that are
hashed; `step` is the first entry of the step list. -/
def friCheckInitialData [DecidableEq Root] (C : LeafCodec F W) (M : MerkleLib W Tree Root Path)
    (step : Nat) (commitments : OMap Root) (order : List (Nat × Nat)) :
    OMap (FriInitialProof F Path) → Option Bool
  | [] => some true
  | (k, ip) :: rest => do
    let c ← commitments.find k
    if M.pathRoot ip.p ≠ c then some false
    else
      let parts ← ip.values.mapM fun y => reorderLeaf order y
      let leaf ← verifierLeaf C (2 ^ step * ip.values.length) parts.flatten
      if M.validate ip.p leaf then friCheckInitialData C M step commitments order rest
      else some false

/-- One round of the verifier (basic_fri.hpp:1042-1132), with the vectors that are hashed -/
def friRoundData [Field F] [DecidableEq F] [DecidableEq Root] (C : LeafCodec F W)
    (M : MerkleLib W Tree Root Path) (prm : FriParams F) (alphas : List F) (step : Nat) (root : Root)
    (rp : FriRoundProof F Path) (w : FriWalk F) : Option (Option (FriWalk F)) :=
  if M.pathRoot rp.p ≠ root then some none
  else do
    let D ← prm.D[w.t]?
    let (_, ix) ← calculateS w.x w.xIndex step D
    let order ← correctOrder w.xIndex w.domainSize step ix
    let values ← reorderLeaf order w.y
    let leaf ← verifierLeaf C (2 ^ step) values
    if M.validate rp.p leaf then
      let w ← friColinears prm alphas step (step - 1) w
      friRoundEnd prm alphas step rp.y w
    else some none

end Crypto3Zk
