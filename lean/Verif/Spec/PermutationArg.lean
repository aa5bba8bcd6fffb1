import Verif.Model.PermutationArg
import Verif.Spec.FRI
import Verif.Spec.TableDesc

/-!
# Specification for the permutation argument
-/

namespace Crypto3Zk

variable {F : Type} [Field F]

/-- The polynomial is zero on every row of the table. -/
def VanishesOnRows (L : FftLib F) (n : Nat) (p : List F) : Prop :=
  ∀ j < 2 ^ n, evalPoly p (L.root n ^ j) = 0

/-- The column (by its number in the table) and the row that a copy constraint names. -/
def TableDesc.cellOf (d : TableDesc) (v : PlonkVar) : Option (Nat × Int) :=
  (d.globalIndex v).map fun i => (i, v.rotation)

/-- Every copy constraint holds for the table whose entry in column `c` and row `r` is `val c r`. -/
def CopiesHold (d : TableDesc) (cs : List (PlonkVar × PlonkVar)) (val : Nat → Int → F) : Prop :=
  ∀ c ∈ cs, ∀ x y, d.cellOf c.1 = some x → d.cellOf c.2 = some y → val x.1 x.2 = val y.1 y.2

/-- The copy constraints name witness, public input or constant cells of the table, in usable rows. -/
def CopiesInTable (d : TableDesc) (cs : List (PlonkVar × PlonkVar)) : Prop :=
  ∀ c ∈ cs, ∀ v, v = c.1 ∨ v = c.2 →
    d.HasColumn v ∧ v.type ≠ .selector ∧ 0 ≤ v.rotation ∧ v.rotation < d.usableRows

/-- The entry in column `c` and row `r` of the table whose columns are the polynomials `column`. -/
def columnValue (L : FftLib F) (n : Nat) (column : Nat → Option (List F)) (c : Nat) (r : Int) : F :=
  match column c with
  | some p => evalPoly p (L.root n ^ r.toNat)
  | none => 0

/-- A setting in which the permutation argument is used: `2 ^ n` rows, of which the usable ones leave
room for at least one more; sizes that fit in 32 bits; the copy constraints are in the table; `order` is
some order of the permuted columns, `gi` their numbers; and `pre` is what the preprocessor computes. -/
structure PermSetup (L : FftLib F) (A n : Nat) (d : TableDesc) (cs : List (PlonkVar × PlonkVar))
    (order : List PlonkVar) (gi : List Nat) (delta : F) (mqc : Nat) (pre : PermData F) : Prop where
  lib : L.Lawful A
  small : n ≤ A
  rows : d.rows = 2 ^ n
  usable : d.usableRows < d.rows
  width : d.width ≤ 2 ^ 32
  rows32 : d.rows ≤ 2 ^ 32
  copies : CopiesInTable d cs
  nodup : order.Nodup
  members : ∀ v, v ∈ order ↔ v ∈ permutedVars cs
  indices : permutedIndices d order = some gi
  data : ∃ fuel, 2 ^ 64 ≤ fuel ∧ permPreprocess L n fuel d cs order delta mqc = some pre

/-- The evaluations a prover with the column polynomials `cols`, the running product `V` and the
partition polynomials `parts` opens at the point `y`. -/
def trueClaims (L : FftLib F) (n : Nat) (pre : PermData F) (cols : List (List F)) (V : List F)
    (parts : List (List F)) (y : F) : PermClaims F :=
  { sId := pre.sId.map (evalPoly · y)
    sSigma := pre.sSigma.map (evalPoly · y)
    cols := cols.map (evalPoly · y)
    V := evalPoly V y
    shifted := evalPoly V (L.root n * y)
    partitions := parts.map (evalPoly · y)
    qLast := evalPoly pre.qLast y
    qBlind := evalPoly pre.qBlind y }

/-- Every value the verifier computes is zero at every row of the table, for the true evaluations of
the columns, of `V` and of the partition polynomials there. This is what the quotient check of the proof
system enforces on the committed polynomials. -/
def RowsAccepted {S : Type} (ch : S → F × S) (st : S) (L : FftLib F) (n : Nat) (pre : PermData F)
    (cols : List (List F)) (V : List F) (parts : List (List F)) : Prop :=
  ∀ j < 2 ^ n, ∃ st', permVerify ch pre.lagrange0 pre.mqc pre.parts
    (trueClaims L n pre cols V parts (L.root n ^ j)) (L.root n ^ j) st = some ((0, 0, 0), st')

/-- A transcript whose challenges are the entries of a list. -/
def scripted (l : List F) : F × List F := (l.headD 0, l.tail)

end Crypto3Zk
