import Verif.Lemmas.Groups
import Mathlib.Data.Rat.Defs
import Mathlib.Algebra.Field.Rat

/-!
# C48: sparse multi-exponentiation and batch exponentiation
-/

set_option linter.unusedSectionVars false

namespace Crypto3Zk

variable {F : Type} [Field F] [DecidableEq F]
variable {G : Type} [AddCommGroup G] [Module F G]
variable {G1 G2 : Type} [AddCommGroup G1] [Module F G1] [AddCommGroup G2] [Module F G2]

/-- **C48** (multi-exponentiation): on a vector with increasing indices, for any index interval and
any scalars covering it, the result is the sum, over all stored indices in the interval, of scalar
times element. -/
theorem C48_multiexp (vec : KcVec G) (hs : vec.entries.Pairwise fun a b => a.1 < b.1)
    (lo hi : Nat) (scalars : List F) (sl : Nat) (hsl : scalars.length ≤ sl)
    (hlen : sl ≤ vec.domainSize) (hhi : hi ≤ lo + scalars.length) :
    kcMultiexp vec lo hi scalars sl =
      some (((vec.entries.filter fun e => decide (lo ≤ e.1 ∧ e.1 < hi)).map
        fun e => scalars.getD (e.1 - lo) 0 • e.2).sum) :=
  kcMultiexp_spec vec hs lo hi scalars sl hsl hlen hhi

/-- **C48** (batch exponentiation): for every vector and every suggested number of chunks, the
result is defined, has the vector's length as its domain size, stores increasing indices, and
stores exactly the nonzero positions with their exponentiated values. -/
theorem C48_batch_exp (g1 : G1) (g2 : G2) (c1 c2 : F) (v : List F) (chunks : Nat) :
    ∃ q, kcBatchExp g1 g2 c1 c2 v chunks = some q ∧ q.domainSize = v.length ∧
      (q.entries.Pairwise fun a b => a.1 < b.1) ∧
      ∀ i e, (i, e) ∈ q.entries ↔
        ∃ x, v[i]? = some x ∧ x ≠ 0 ∧ e = ((c1 * x) • g1, (c2 * x) • g2) := by
  refine ⟨_, kcBatchExp_spec g1 g2 c1 c2 v chunks, rfl, kcEntries_sorted .., ?_⟩
  intro i e
  simp only [List.mem_flatMap, List.mem_range]
  constructor
  · rintro ⟨j, hj, hm⟩
    have hij : i = j := mem_kcEntry hm
    subst hij
    unfold kcEntry at hm
    split at hm
    · simp at hm
    · rename_i h0
      rw [List.getD_eq_getElem _ _ hj] at h0 hm
      simp only [List.mem_singleton, Prod.mk.injEq, true_and] at hm
      exact ⟨v[i], List.getElem?_eq_getElem hj, h0, hm⟩
  · rintro ⟨x, hx, h0, rfl⟩
    obtain ⟨hi, hxe⟩ := List.getElem?_eq_some_iff.1 hx
    refine ⟨i, hi, ?_⟩
    unfold kcEntry
    rw [List.getD_eq_getElem _ _ hi, hxe]
    simp [h0]

/-- **C48**: the chunking is invisible. -/
theorem C48_chunks_irrelevant (g1 : G1) (g2 : G2) (c1 c2 : F) (v : List F) (k k' : Nat) :
    kcBatchExp g1 g2 c1 c2 v k = kcBatchExp g1 g2 c1 c2 v k' := by
  rw [kcBatchExp_spec, kcBatchExp_spec]

/-- **C48** (together): multi-exponentiating an interval of a batch-exponentiated vector gives the
exponentiation of the inner product over that interval, zero entries included. -/
theorem C48_multiexp_batch_exp (g1 : G1) (g2 : G2) (c1 c2 : F) (v : List F) (chunks lo hi : Nat)
    (hlo : lo ≤ hi) (hhi : hi ≤ v.length) (scalars : List F) (hs : scalars.length = hi - lo) :
    ((kcBatchExp g1 g2 c1 c2 v chunks).bind fun q => kcMultiexp q lo hi scalars scalars.length)
      = some ((c1 * innerProduct scalars (v.drop lo)) • g1,
              (c2 * innerProduct scalars (v.drop lo)) • g2) :=
  kcMultiexp_batch g1 g2 c1 c2 v chunks lo hi hlo hhi scalars hs _ (le_refl _) (by omega)

section Examples

/-- four nonzero entries, three chunks: positions 0, 2, 3, 5 are stored -/
example : (kcBatchExp (1 : ℚ) (1 : ℚ) (2 : ℚ) (3 : ℚ) [5, 0, 7, 1, 0, 4] 3).map
      (fun q => q.entries.map (·.1)) = some [0, 2, 3, 5] := by decide +kernel

/-- scalars zero, one and two on an interval -/
example : ((kcBatchExp (1 : ℚ) (1 : ℚ) (2 : ℚ) (3 : ℚ) [5, 0, 7, 1, 0, 4] 3).bind
      fun q => kcMultiexp q 2 6 [1, 0, 9, (2 : ℚ)] 4) = some (30, 45) := by decide +kernel

/-- too few scalars trip the assertion -/
example : kcMultiexp (⟨3, [(0, (1 : ℚ)), (2, 1)]⟩ : KcVec ℚ) 0 3 [(1 : ℚ), 1] 2 = none := by
  decide +kernel

end Examples

end Crypto3Zk
