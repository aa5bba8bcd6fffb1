import Verif.Spec.KimchiPedersen

/-!
# The single claims inside a batch of evaluation claims
-/

namespace Crypto3Zk

variable {F : Type} [Field F] {G : Type} [AddCommGroup G] [Module F G] [DecidableEq G]

/-- The values a claim states, one row for each of its commitments (the chunks, then the shifted one)
and in a row one value for each point. A shifted commitment with bound `b` is claimed to have the value
`p ^ (n - b % n)` times that of the last chunk, or zero when the bound is beyond the chunks. `none`: the
evaluations have no such shape. -/
def IpaEval.rows (points : List F) (n : Nat) (e : IpaEval F G) : Option (List (List F)) := do
  let evals ← ipaTranspose e.evaluations
  if e.commit.shifted ≠ 0 ∧ e.bound ≠ -1 then
    let last ← (if 0 ≤ e.bound ∧ e.bound.toNat ≤ evals.length * n then evals.getLast? else
      some (List.replicate points.length 0))
    let shifted ← last.zipIdx.mapM fun (x : F × Nat) => do
      let p ← points[x.2]?
      pure (p ^ (n - e.bound.toNat % n) * x.1)
    pure (evals ++ [shifted])
  else pure evals

end Crypto3Zk
