import Mathlib.Data.Set.Card
import Mathlib.Data.Nat.Log
import Mathlib.Data.Nat.Lattice
import Verif.Model.CycleRepresentation

/-!
# What C107 says about the work of processing copy constraints

`relabel` uses one unit of fuel for each iteration of the `do ... while` loop, so the least fuel with
which a constraint is processed is the number of iterations its loop makes.
-/

namespace Crypto3Zk.CycleRep

variable {K : Type} [DecidableEq K]

/-- the number of loop iterations made for the constraint `x = y` in the state `s` -/
noncomputable def iterations (s : CycleRep K) (x y : K) : Nat :=
  sInf {f | (applyCopy f s x y).isSome}

/-- the number of loop iterations made for a list of constraints, one after the other -/
noncomputable def totalIterations (fuel : Nat) : CycleRep K → List (K × K) → Nat
  | _, [] => 0
  | s, c :: cs => s.iterations c.1 c.2 +
      match applyCopy fuel s c.1 c.2 with
      | some s' => totalIterations fuel s' cs
      | none => 0

/-- the state before the first constraint -/
def start (grid : List K) : CycleRep K :=
  grid.foldl addKey ⟨fun _ => none, fun _ => none, fun _ => none⟩

/-- the cells the preprocessor knows about in the end -/
def cells (grid : List K) (cs : List (K × K)) : Set K :=
  {k | k ∈ grid ∨ ∃ c ∈ cs, k = c.1 ∨ k = c.2}

end Crypto3Zk.CycleRep
