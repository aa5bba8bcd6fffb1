import Verif.Lemmas.Quotient
import Mathlib.Algebra.Field.Rat

/-!
# C36: quotient splitting recombines to the original polynomial

`evalPoly f y` is the value at `y` of the polynomial with coefficients `f`; `consolidateQuotient`
is what the verifier computes from the values of the chunks.
-/

set_option linter.unusedSectionVars false

namespace Crypto3Zk

variable {F : Type} [Field F]

/-- **C36** (`split_polynomial`): for every polynomial and every degree bound, the chunks read in
order are the coefficients of the polynomial, every chunk is non-empty and has at most
`maxDegree + 1` coefficients, and there are as few chunks as possible. -/
theorem C36_chunks (f : List F) (maxDegree : Nat) :
    (splitPolynomial f maxDegree).flatten = f ∧
      (∀ c ∈ splitPolynomial f maxDegree, c ≠ [] ∧ c.length ≤ maxDegree + 1) ∧
      (splitPolynomial f maxDegree).length = (f.length + maxDegree) / (maxDegree + 1) :=
  ⟨by simpa [splitPolynomial] using splitLoop_flatten f maxDegree 0, splitLoop_length_le f maxDegree 0,
    by simpa [splitPolynomial] using splitLoop_count f maxDegree 0⟩

/-- **C36** (recombination): the sum of the chunk values times `y ^ (i * rows)` is the value of the
polynomial, for every polynomial, chunk size and point. -/
theorem C36_recombine (f : List F) (rows : Nat) (hr : 0 < rows) (y : F) :
    consolidateQuotient ((splitPolynomial f (rows - 1)).map (evalPoly · y)) rows y =
      evalPoly f y := by
  have := splitLoop_recombine f (rows - 1) 0 y
  rw [Nat.sub_add_cancel hr] at this
  simpa [splitPolynomial] using this

/-- **C36** (what the prover commits to): when the prover's splitting is defined, it yields exactly
the number of chunks fixed by the circuit, whatever the quotient is; every chunk fits in `rows`
coefficients, and the verifier's recombination of the chunk values at any challenge is the value of
the quotient. -/
theorem C36_prover_chunks (f : List F) (permSize lookupDegree gatesDegree rows maxChunks : Nat)
    (cs : List (List F))
    (h : quotientSplit f permSize lookupDegree gatesDegree rows maxChunks = some cs) :
    cs.length = splitPolynomialSize permSize lookupDegree gatesDegree rows maxChunks ∧
      (∀ c ∈ cs, c.length ≤ rows) ∧
      ∀ y, consolidateQuotient (cs.map (evalPoly · y)) rows y = evalPoly f y := by
  unfold quotientSplit at h
  split_ifs at h with hr
  have hr : 0 < rows := Nat.pos_of_ne_zero hr
  rw [storeChunks_eq _ _ _ (Nat.zero_le _)] at h
  split_ifs at h with hle
  simp only [Nat.zero_add, List.length_replicate] at hle
  simp only [List.take_zero, List.nil_append, Nat.zero_add, List.drop_replicate,
    Option.some.injEq] at h
  subst h
  refine ⟨by simp; omega, ?_, ?_⟩
  · intro c hc
    rcases List.mem_append.1 hc with hc | hc
    · have := ((C36_chunks f (rows - 1)).2.1 c hc).2
      omega
    · rw [List.eq_of_mem_replicate hc]; simp
  · intro y
    rw [List.map_append, List.map_replicate, evalPoly_nil, consolidate_append_zeros,
      C36_recombine f rows hr y]

/-- **C36** (when it is defined): the prover's splitting succeeds exactly when the quotient has at
most `rows` coefficients per committed chunk; otherwise it writes past the end of its vector. -/
theorem C36_defined (f : List F) (permSize lookupDegree gatesDegree rows maxChunks : Nat) :
    (quotientSplit f permSize lookupDegree gatesDegree rows maxChunks).isSome ↔
      0 < rows ∧
      f.length ≤ rows * splitPolynomialSize permSize lookupDegree gatesDegree rows maxChunks := by
  unfold quotientSplit
  split_ifs with hr
  · simp [hr]
  · have hr : 0 < rows := Nat.pos_of_ne_zero hr
    rw [storeChunks_eq _ _ _ (Nat.zero_le _)]
    have hcount := (C36_chunks f (rows - 1)).2.2
    rw [Nat.sub_add_cancel hr] at hcount
    simp only [Nat.zero_add, List.length_replicate, hcount]
    generalize splitPolynomialSize permSize lookupDegree gatesDegree rows maxChunks = s
    have : (f.length + (rows - 1)) / rows ≤ s ↔ f.length ≤ rows * s := by
      rw [← Nat.lt_succ_iff, Nat.div_lt_iff_lt_mul hr, Nat.succ_mul, Nat.mul_comm s]
      omega
    rw [← this]
    simp [hr]

/-- **C36** (honest quotients fit): with no chunk limit, or one that is not below the number of
chunks the circuit needs, every quotient within the degree bounds of the three arguments is split
without an error. -/
theorem C36_within_degree_bound (f : List F)
    (permSize lookupDegree gatesDegree rows maxChunks : Nat) (hr : 0 < rows)
    (hc : maxChunks = 0 ∨ splitPolynomialSize permSize lookupDegree gatesDegree rows 0 ≤ maxChunks)
    (hf : f.length ≤
      max (max (permSize + 2) (lookupDegree + 1)) (gatesDegree + 1) * (rows - 1)) :
    (quotientSplit f permSize lookupDegree gatesDegree rows maxChunks).isSome :=
  (C36_defined f permSize lookupDegree gatesDegree rows maxChunks).2
    ⟨hr, hf.trans (splitPolynomialSize_rows _ _ _ _ _ hr hc)⟩

/-- **C36** (finding): a chunk limit that is too small for the quotient makes the prover write out
of bounds; the limit is not checked against the quotient's size. -/
theorem C36_limit_too_small (f : List F) (permSize lookupDegree gatesDegree rows maxChunks : Nat)
    (h0 : 0 < maxChunks) (hf : rows * maxChunks < f.length) :
    quotientSplit f permSize lookupDegree gatesDegree rows maxChunks = none := by
  rw [← Option.not_isSome_iff_eq_none, C36_defined]
  rintro ⟨hr, h⟩
  have : splitPolynomialSize permSize lookupDegree gatesDegree rows maxChunks ≤ maxChunks := by
    unfold splitPolynomialSize
    simp only
    split_ifs <;> omega
  exact absurd (h.trans (Nat.mul_le_mul_left rows this)) (by omega)

/-- Three coefficients per chunk: five coefficients make two chunks, the limits are respected. -/
example : splitPolynomial ([1, 2, 3, 4, 5] : List ℚ) 2 = [[1, 2, 3], [4, 5]] ∧
    quotientSplit ([1, 2, 3, 4, 5] : List ℚ) 1 0 2 3 0 = some [[1, 2, 3], [4, 5]] ∧
    consolidateQuotient ([[1, 2, 3], [4, 5]].map (evalPoly · (2 : ℚ))) 3 2 = 129 ∧
    evalPoly ([1, 2, 3, 4, 5] : List ℚ) 2 = 129 ∧
    quotientSplit ([1, 2, 3, 4, 5] : List ℚ) 1 0 2 3 1 = none := by
  have h : splitPolynomial ([1, 2, 3, 4, 5] : List ℚ) 2 = [[1, 2, 3], [4, 5]] := by
    simp [splitPolynomial, splitLoop]
  refine ⟨h, ?_, by decide +kernel, by decide +kernel, ?_⟩ <;>
    simp [quotientSplit, h, splitPolynomialSize, storeChunks]

end Crypto3Zk
