import Verif.Model.KimchiSponge

/-!
# Specification for C80: the calls of a protocol and what the transcript should return
-/

namespace Crypto3Zk

variable {H : Type} {q r : Nat}

/-- the calls that the protocols of the repository make on the sponge over the base field -/
inductive FqCall (q r : Nat) where
  | absorbG (g : ZMod q × ZMod q)
  | absorbGs (gs : List (ZMod q × ZMod q))
  | absorbFr (f : ZMod r)
  | absorbFrs (fs : List (ZMod r))
  | challenge
  | challengeFq
  | digest

/-- the outcome of a call: the new state and the value returned, as a number -/
def runFqCall (ops : SpongeOps (ZMod q) H) (limbs : Nat) (s : KSponge H) :
    FqCall q r → Option Nat × KSponge H
  | .absorbG g => (none, fqAbsorbG ops s g)
  | .absorbGs gs => (none, fqAbsorbGs ops s gs)
  | .absorbFr f => (none, fqAbsorbFr ops s f)
  | .absorbFrs fs => (none, fqAbsorbFrs ops s fs)
  | .challenge => let c : ZMod r × KSponge H := fqChallenge ops limbs s; (some c.1.val, c.2)
  | .challengeFq => let c := fqSqueezeField ops s; (some c.1.val, c.2)
  | .digest => let c : ZMod r × KSponge H := fqDigest ops s; (some c.1.val, c.2)

def runFqCalls (ops : SpongeOps (ZMod q) H) (limbs : Nat) (s : KSponge H) :
    List (FqCall q r) → List Nat × KSponge H
  | [] => ([], s)
  | c :: cs =>
    let x := runFqCall ops limbs s c
    let y := runFqCalls ops limbs x.2 cs
    (x.1.toList ++ y.1, y.2)

/-- the same without a buffer: an absorbing call passes its elements to the permutation, a squeezing call
reads a fresh element of it -/
def idealFqCall (ops : SpongeOps (ZMod q) H) (h : H) : FqCall q r → Option Nat × H
  | .absorbG g => (none, [g.1, g.2].foldl ops.absorb h)
  | .absorbGs gs => (none, (gs.flatMap fun g => [g.1, g.2]).foldl ops.absorb h)
  | .absorbFr f => (none, (frElements q r f).foldl ops.absorb h)
  | .absorbFrs fs => (none, (fs.flatMap (frElements q r)).foldl ops.absorb h)
  | .challenge => (some ((ops.squeeze h).1.val % 2 ^ 128), (ops.squeeze h).2)
  | .challengeFq => (some (ops.squeeze h).1.val, (ops.squeeze h).2)
  | .digest => (some ((ops.squeeze h).1.val % r), (ops.squeeze h).2)

def idealFqCalls (ops : SpongeOps (ZMod q) H) (h : H) : List (FqCall q r) → List Nat × H
  | [] => ([], h)
  | c :: cs =>
    let x := idealFqCall ops h c
    let y := idealFqCalls ops x.2 cs
    (x.1.toList ++ y.1, y.2)

end Crypto3Zk
