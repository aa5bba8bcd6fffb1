import Verif.Model.KimchiExpr

/-!
# Specification for C81: expressions and their values
-/

namespace Crypto3Zk

variable {F : Type} [Field F] [DecidableEq F]

/-- an expression: constants and cells, arithmetic, and shared subexpressions: `share` remembers a value,
`shared i` is the `i`-th remembered one -/
inductive KExpr (F : Type) where
  | alpha | beta | gamma | jointCombiner | endoCoefficient
  | mds (row col : Fin 3)
  | literal (x : F)
  | cell (v : KVariable)
  | vanishesOnLast4Rows
  | unnormalizedLagrangeBasis (i : Int)
  | add (a b : KExpr F)
  | mul (a b : KExpr F)
  | sub (a b : KExpr F)
  | pow (a : KExpr F) (n : Nat)
  | double (a : KExpr F)
  | square (a : KExpr F)
  | share (a : KExpr F)
  | shared (i : Nat)

/-- Polish notation -/
def KExpr.polish : KExpr F → List (PolishToken F)
  | .alpha => [.alpha]
  | .beta => [.beta]
  | .gamma => [.gamma]
  | .jointCombiner => [.jointCombiner]
  | .endoCoefficient => [.endoCoefficient]
  | .mds i j => [.mds i j]
  | .literal x => [.literal x]
  | .cell v => [.cell v]
  | .vanishesOnLast4Rows => [.vanishesOnLast4Rows]
  | .unnormalizedLagrangeBasis i => [.unnormalizedLagrangeBasis i]
  | .add a b => a.polish ++ b.polish ++ [.add]
  | .mul a b => a.polish ++ b.polish ++ [.mul]
  | .sub a b => a.polish ++ b.polish ++ [.sub]
  | .pow a n => a.polish ++ [.pow n]
  | .double a => a.polish ++ [.dup, .add]
  | .square a => a.polish ++ [.dup, .mul]
  | .share a => a.polish ++ [.store]
  | .shared i => [.load i]

/-- The value of an expression, with the values remembered so far; `none` if a cell, a quotient or a
remembered value does not exist. The operands are evaluated from left to right. -/
def KExpr.value (env : KEnv F) : KExpr F → List F → Option (F × List F)
  | .alpha, m => some (env.c.alpha, m)
  | .beta, m => some (env.c.beta, m)
  | .gamma, m => some (env.c.gamma, m)
  | .jointCombiner, m => some (env.c.jointCombiner, m)
  | .endoCoefficient, m => some (env.c.endoCoefficient, m)
  | .mds i j, m => some (env.c.mds i j, m)
  | .literal x, m => some (x, m)
  | .cell v, m => (variableEvaluate v env.cur env.nxt).map (·, m)
  | .vanishesOnLast4Rows, m => some (evalVanishesOnLast4Rows env.domain env.pt, m)
  | .unnormalizedLagrangeBasis i, m => (Crypto3Zk.unnormalizedLagrangeBasis env.domain i env.pt).map (·, m)
  | .add a b, m => do
    let (x, m) ← a.value env m
    let (y, m) ← b.value env m
    pure (x + y, m)
  | .mul a b, m => do
    let (x, m) ← a.value env m
    let (y, m) ← b.value env m
    pure (x * y, m)
  | .sub a b, m => do
    let (x, m) ← a.value env m
    let (y, m) ← b.value env m
    pure (x - y, m)
  | .pow a n, m => do
    let (x, m) ← a.value env m
    pure (x ^ n, m)
  | .double a, m => do
    let (x, m) ← a.value env m
    pure (2 * x, m)
  | .square a, m => do
    let (x, m) ← a.value env m
    pure (x ^ 2, m)
  | .share a, m => do
    let (x, m) ← a.value env m
    pure (x, m ++ [x])
  | .shared i, m => m[i]?.map (·, m)

end Crypto3Zk
