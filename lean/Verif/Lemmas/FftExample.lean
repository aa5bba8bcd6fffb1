import Verif.Lemmas.FRI
import Mathlib.GroupTheory.OrderOfElement
import Mathlib.RingTheory.RootsOfUnity.PrimitiveRoots
import Mathlib.LinearAlgebra.Lagrange

/-!
# Libraries that meet the contracts of the FRI specification
-/

namespace Crypto3Zk

set_option linter.unusedSectionVars false

open Polynomial

variable {F : Type} [Field F] {L : FftLib F} {A : Nat}

theorem root_primitive (hL : L.Lawful A) (n : Nat) (hn : n ≤ A) :
    IsPrimitiveRoot (L.root n) (2 ^ n) := by
  cases n with
  | zero => rw [hL.root_zero, pow_zero]; exact IsPrimitiveRoot.one
  | succ m =>
    have h1 : L.root (m + 1) ^ 2 ^ m ≠ 1 := by
      rw [root_pow_half hL m (by omega)]
      intro h
      apply hL.two_ne
      linear_combination -h
    have : orderOf (L.root (m + 1)) = 2 ^ (m + 1) :=
      orderOf_eq_prime_pow h1 (root_pow_card hL _ hn)
    rw [← this]
    exact IsPrimitiveRoot.orderOf _

theorem elem_injective (hL : L.Lawful A) (n : Nat) (hn : n ≤ A) (i j : Nat) (hi : i < 2 ^ n)
    (hj : j < 2 ^ n) (h : (L.domain n).elem i = (L.domain n).elem j) : i = j :=
  (root_primitive hL n hn).pow_inj hi hj h

/-- Every vector of values on a domain is the vector of values of a polynomial. -/
theorem evals_surjective (hL : L.Lawful A) (n : Nat) (hn : n ≤ A) (v : List F)
    (hv : v.length = 2 ^ n) : ∃ c : List F, c.length = 2 ^ n ∧ (L.domain n).evals c = v := by
  classical
  have hinj : Set.InjOn (fun i => (L.domain n).elem i) (Finset.range (2 ^ n) : Set Nat) := by
    intro i hi j hj h
    exact elem_injective hL n hn i j (by simpa using hi) (by simpa using hj) h
  set p := Lagrange.interpolate (Finset.range (2 ^ n)) (fun i => (L.domain n).elem i)
    (fun i => v.getD i 0) with hp
  have hdeg : p.degree < ((2 ^ n : Nat) : WithBot ℕ) := by
    have := Lagrange.degree_interpolate_lt (fun i => v.getD i 0) hinj
    rwa [Finset.card_range] at this
  refine ⟨(List.range (2 ^ n)).map p.coeff, by simp, ?_⟩
  apply List.ext_getElem
  · rw [length_evals, hv]; rfl
  · intro i h1 h2
    have hi : i < 2 ^ n := by omega
    simp only [FriDomain.evals, List.getElem_map, List.getElem_range]
    rw [← eval_toPoly, exists_toPoly p (2 ^ n) hdeg, hp,
      Lagrange.eval_interpolate_at_node _ hinj (by simpa using hi), List.getD_eq_getElem _ _ h2]

/-! ## a concrete library -/

/-- drop the zeros at the end, keeping one coefficient -/
def trimZeros [DecidableEq F] (a : List F) : List F :=
  match (a.reverse.dropWhile (· = 0)).reverse with
  | [] => [0]
  | l => l

theorem trimZeros_eq [DecidableEq F] (a : List F) : trimZeros a ≠ [] ∧
    toPoly (trimZeros a) = toPoly a ∧
    ∀ c : List F, toPoly c = toPoly a → (trimZeros a).length ≤ max 1 c.length := by
  induction a using List.reverseRecOn with
  | nil =>
    refine ⟨by simp [trimZeros], by simp [trimZeros, toPoly_cons, toPoly_nil], fun c _ => ?_⟩
    simp [trimZeros]
  | append_singleton a x ih =>
    by_cases hx : x = 0
    · subst hx
      have h1 : trimZeros (a ++ [0]) = trimZeros a := by
        unfold trimZeros
        simp
      have h2 : toPoly (a ++ [0]) = toPoly a := by
        ext i
        rw [coeff_toPoly, coeff_toPoly]
        by_cases hi : i < a.length
        · rw [List.getD_append _ _ _ _ hi]
        · rw [List.getD_append_right _ _ _ _ (by omega), List.getD_eq_default a 0 (by omega)]
          cases i - a.length <;> simp
      rw [h1, h2]
      exact ih
    · have h1 : trimZeros (a ++ [x]) = a ++ [x] := by
        unfold trimZeros
        simp [hx]
      rw [h1]
      refine ⟨by simp, rfl, fun c hc => ?_⟩
      by_contra hlt
      have hlt' : c.length ≤ a.length := by
        simp only [List.length_append, List.length_singleton] at hlt
        omega
      have := congrArg (fun p => p.coeff a.length) hc
      simp only [coeff_toPoly] at this
      rw [List.getD_eq_default c 0 hlt', List.getD_append_right _ _ _ _ le_rfl] at this
      simp at this
      exact hx this.symm

/-- A library with given roots of unity whose `coefficients()` interpolates. -/
def FftLib.ofRoots [DecidableEq F] (root : Nat → F) : FftLib F where
  root := root
  coefficients := fun v => trimZeros (lagrangeInterpolation
    (((List.range v.length).map fun i => root (Nat.log2 v.length) ^ i).zip v))

theorem FftLib.ofRoots_lawful [DecidableEq F] (root : Nat → F) (A : Nat) (h2 : (2 : F) ≠ 0)
    (h0 : root 0 = 1) (h1 : 1 ≤ A → root 1 = -1)
    (hsq : ∀ k < A, root (k + 1) * root (k + 1) = root k) : (FftLib.ofRoots root).Lawful A := by
  -- the laws of the roots alone give the distinctness of the points
  set L0 : FftLib F := ⟨root, fun _ => []⟩ with hL0
  have hhalf : ∀ n < A, root (n + 1) ^ 2 ^ n = -1 := by
    intro n
    induction n with
    | zero => intro h; simpa using h1 h
    | succ n ih =>
      intro h
      rw [pow_succ', pow_mul, pow_two, hsq (n + 1) h]
      exact ih (by omega)
  have hcard : ∀ n ≤ A, root n ^ 2 ^ n = 1 := by
    intro n hn
    cases n with
    | zero => simp [h0]
    | succ n => rw [pow_succ, pow_mul, hhalf n (by omega)]; ring
  have hprim : ∀ n ≤ A, IsPrimitiveRoot (root n) (2 ^ n) := by
    intro n hn
    cases n with
    | zero => rw [h0, pow_zero]; exact IsPrimitiveRoot.one
    | succ m =>
      have h3 : root (m + 1) ^ 2 ^ m ≠ 1 := by
        rw [hhalf m (by omega)]
        intro h
        apply h2
        linear_combination -h
      have : orderOf (root (m + 1)) = 2 ^ (m + 1) := orderOf_eq_prime_pow h3 (hcard _ hn)
      rw [← this]
      exact IsPrimitiveRoot.orderOf _
  refine ⟨h2, h0, h1, hsq, fun n hn c hc => ?_⟩
  set v := ((FftLib.ofRoots root).domain n).evals c with hv
  have hlen : v.length = 2 ^ n := by rw [hv, length_evals]; rfl
  set pts := ((List.range v.length).map fun i => root (Nat.log2 v.length) ^ i).zip v with hpts
  have hfst : pts.map Prod.fst = (List.range (2 ^ n)).map fun i => root n ^ i := by
    rw [hpts, List.map_fst_zip (by simp), hlen, Nat.log2_two_pow]
  have hnd : (pts.map Prod.fst).Nodup := by
    rw [hfst]
    refine List.Nodup.map_on ?_ List.nodup_range
    intro i hi j hj h
    exact (hprim n hn).pow_inj (List.mem_range.mp hi) (List.mem_range.mp hj) h
  have heval : ∀ i < 2 ^ n, evalPoly (lagrangeInterpolation pts) (root n ^ i) =
      evalPoly c (root n ^ i) := by
    intro i hi
    apply interpolation_eval pts hnd
    rw [hpts, hlen, Nat.log2_two_pow, List.mem_iff_getElem]
    refine ⟨i, by simp [hlen, hi], ?_⟩
    simp [hv, FriDomain.evals, FftLib.domain, FftLib.ofRoots]
  have hpoly : toPoly (lagrangeInterpolation pts) = toPoly c := by
    have hl : (lagrangeInterpolation pts).length ≤ 2 ^ n := by
      have := length_lagrangeSum pts []
      simpa [lagrangeInterpolation, hpts, hlen] using this
    have hinj : Set.InjOn (fun i => root n ^ i) (Finset.range (2 ^ n) : Set Nat) := by
      intro i hi j hj h
      exact (hprim n hn).pow_inj (by simpa using hi) (by simpa using hj) h
    refine Polynomial.eq_of_degrees_lt_of_eval_index_eq (Finset.range (2 ^ n)) hinj ?_ ?_ ?_
    · refine lt_of_lt_of_le (degree_toPoly _) ?_
      simp only [Finset.card_range]
      exact_mod_cast hl
    · refine lt_of_lt_of_le (degree_toPoly _) ?_
      simp only [Finset.card_range]
      exact_mod_cast hc
    · intro i hi
      rw [eval_toPoly, eval_toPoly]
      exact heval i (by simpa using hi)
  obtain ⟨t1, t2, t3⟩ := trimZeros_eq (lagrangeInterpolation pts)
  refine ⟨t1, t3 c hpoly.symm, fun x => ?_⟩
  show evalPoly (trimZeros (lagrangeInterpolation pts)) x = _
  rw [← eval_toPoly, t2, hpoly, eval_toPoly]

/-- A Merkle tree whose root and paths are the list of leaves. -/
def listMerkle (F : Type) [DecidableEq F] :
    MerkleLib F (List (List F)) (List (List F)) (List (List F) × Nat) where
  build := id
  root := id
  path := fun t i => (t, i)
  pathRoot := Prod.fst
  validate := fun p l => decide (p.1[p.2]? = some l)

theorem listMerkle_lawful [DecidableEq F] : (listMerkle F).Lawful where
  root := fun _ _ _ _ _ => rfl
  validate := fun _ leaves i h _ => by simp [listMerkle, h]

end Crypto3Zk
