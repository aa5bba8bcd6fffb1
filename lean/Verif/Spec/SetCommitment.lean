/-!
# Specification: the distinct elements of a list, in order of first occurrence
-/

namespace Crypto3Zk

/-- the elements of `l` that are not in `seen`, each once, in order of first occurrence, after
`seen` -/
def firstOccurrences {α : Type} [DecidableEq α] (l : List α) : List α :=
  l.foldl (fun seen x => if x ∈ seen then seen else seen ++ [x]) []

end Crypto3Zk
