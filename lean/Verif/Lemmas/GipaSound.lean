import Verif.Spec.GipaTree
import Mathlib.LinearAlgebra.Vandermonde
import Mathlib.LinearAlgebra.Matrix.NonsingularInverse
import Mathlib.Algebra.BigOperators.Intervals
import Mathlib.Tactic.Module
import Mathlib.Tactic.LinearCombination
import Mathlib.Tactic.FieldSimp

/-!
# Lemmas: extraction from trees of transcripts of the aggregation argument
-/

set_option linter.unusedSectionVars false

namespace Crypto3Zk

open Finset

variable {F : Type} [Field F] {X Y M Z Msg Leaf : Type} [AddCommGroup X] [Module F X] [AddCommGroup Y]
  [Module F Y] [AddCommGroup M] [Module F M] [AddCommGroup Z] [Module F Z]

theorem RoundTree.AllPaths.imp : ∀ {k : Nat} (t : RoundTree F Msg Leaf k)
    {Q Q' : List Msg → List F → Leaf → Prop},
    t.AllPaths Q → (∀ ms xs a, ms.length = k → xs.length = k → Q ms xs a → Q' ms xs a) → t.AllPaths Q'
  | _, .leaf _, _, _, h, hi => hi _ _ _ rfl rfl h
  | _, .node _ _ sub, _, _, h, hi => fun i => RoundTree.AllPaths.imp (sub i) (h i)
      fun ms xs a hl hl' hq => hi _ _ _ (by simp [hl]) (by simp [hl']) hq

/-- weights that single out one power of four distinct values -/
theorem exists_weights (c : Fin 4 → F) (hc : Function.Injective c) :
    ∃ s : Fin 4 → Fin 4 → F, ∀ e d : Fin 4, ∑ j, s e j * c j ^ (d : Nat) = if e = d then 1 else 0 := by
  have hdet : IsUnit (Matrix.vandermonde c).det :=
    isUnit_iff_ne_zero.mpr (Matrix.det_vandermonde_ne_zero_iff.mpr hc)
  refine ⟨fun e j => (Matrix.vandermonde c)⁻¹ e j, fun e d => ?_⟩
  have h := congrFun (congrFun (Matrix.nonsing_inv_mul _ hdet) e) d
  rw [Matrix.mul_apply, Matrix.one_apply] at h
  simpa [Matrix.vandermonde_apply] using h

/-- a cubic with coefficients in a module that vanishes at four values is zero -/
theorem module_cubic (c : Fin 4 → F) (hc : Function.Injective c) (u0 u1 u2 u3 : M)
    (h : ∀ j, u0 + c j • u1 + c j ^ 2 • u2 + c j ^ 3 • u3 = 0) : u0 = 0 ∧ u1 = 0 ∧ u2 = 0 ∧ u3 = 0 := by
  obtain ⟨s, hs⟩ := exists_weights c hc
  have key : ∀ e : Fin 4, (∑ j, s e j * c j ^ 0) • u0 + (∑ j, s e j * c j ^ 1) • u1 +
      (∑ j, s e j * c j ^ 2) • u2 + (∑ j, s e j * c j ^ 3) • u3 = 0 := by
    intro e
    have : ∑ j, s e j • (u0 + c j • u1 + c j ^ 2 • u2 + c j ^ 3 • u3) = 0 :=
      Finset.sum_eq_zero fun j _ => by rw [h j, smul_zero]
    rw [← this, Finset.sum_smul, Finset.sum_smul, Finset.sum_smul, Finset.sum_smul,
      ← Finset.sum_add_distrib, ← Finset.sum_add_distrib, ← Finset.sum_add_distrib]
    refine Finset.sum_congr rfl fun j _ => ?_
    module
  have k2 : ∀ e : Fin 4, (if e = 0 then (1 : F) else 0) • u0 + (if e = 1 then (1 : F) else 0) • u1 +
      (if e = 2 then (1 : F) else 0) • u2 + (if e = 3 then (1 : F) else 0) • u3 = 0 := by
    intro e
    have := key e
    rw [← hs e 0, ← hs e 1, ← hs e 2, ← hs e 3]
    exact this
  exact ⟨by simpa using k2 0, by simpa using k2 1, by simpa using k2 2, by simpa using k2 3⟩

/-- a commitment under a key of linear maps -/
def keyCommit (n : Nat) (φ : Nat → X →ₗ[F] M) (ψ : Nat → Y →ₗ[F] M) (x : Nat → X) (y : Nat → Y) : M :=
  ∑ i ∈ range n, (φ i (x i) + ψ i (y i))

/-- no non-zero vectors have the commitment zero -/
def KeyBinding (n : Nat) (φ : Nat → X →ₗ[F] M) (ψ : Nat → Y →ₗ[F] M) : Prop :=
  ∀ x y, keyCommit n φ ψ x y = 0 → ∀ i < n, x i = 0 ∧ y i = 0

theorem keyCommit_add (n : Nat) (φ : Nat → X →ₗ[F] M) (ψ : Nat → Y →ₗ[F] M) (x x' : Nat → X) (y y' : Nat → Y) :
    keyCommit n φ ψ (fun i => x i + x' i) (fun i => y i + y' i) =
      keyCommit n φ ψ x y + keyCommit n φ ψ x' y' := by
  unfold keyCommit
  rw [← Finset.sum_add_distrib]
  refine Finset.sum_congr rfl fun i _ => ?_
  rw [map_add, map_add]
  abel

theorem keyCommit_smul (n : Nat) (φ : Nat → X →ₗ[F] M) (ψ : Nat → Y →ₗ[F] M) (a : F) (x : Nat → X) (y : Nat → Y) :
    keyCommit n φ ψ (fun i => a • x i) (fun i => a • y i) = a • keyCommit n φ ψ x y := by
  unfold keyCommit
  rw [Finset.smul_sum]
  refine Finset.sum_congr rfl fun i _ => ?_
  rw [map_smul, map_smul, smul_add]

theorem keyCommit_sum {ι : Type} (S : Finset ι) (n : Nat) (φ : Nat → X →ₗ[F] M) (ψ : Nat → Y →ₗ[F] M)
    (t : ι → F) (x : ι → Nat → X) (y : ι → Nat → Y) :
    keyCommit n φ ψ (fun i => ∑ j ∈ S, t j • x j i) (fun i => ∑ j ∈ S, t j • y j i) =
      ∑ j ∈ S, t j • keyCommit n φ ψ (x j) (y j) := by
  classical
  induction S using Finset.induction_on with
  | empty => simp [keyCommit]
  | insert a S ha ih =>
    simp only [Finset.sum_insert ha]
    rw [keyCommit_add, keyCommit_smul, ih]

/-- two openings of the same value are the same -/
theorem KeyBinding.unique {n : Nat} {φ : Nat → X →ₗ[F] M} {ψ : Nat → Y →ₗ[F] M} (h : KeyBinding n φ ψ)
    {x x' : Nat → X} {y y' : Nat → Y} (he : keyCommit n φ ψ x y = keyCommit n φ ψ x' y') :
    ∀ i < n, x i = x' i ∧ y i = y' i := by
  have h0 : keyCommit n φ ψ (fun i => x i + (-1 : F) • x' i) (fun i => y i + (-1 : F) • y' i) = 0 := by
    rw [keyCommit_add, keyCommit_smul, he]
    module
  intro i hi
  obtain ⟨h1, h2⟩ := h _ _ h0 i hi
  constructor
  · rw [neg_one_smul] at h1; exact eq_of_sub_eq_zero (by rw [sub_eq_add_neg]; exact h1)
  · rw [neg_one_smul] at h2; exact eq_of_sub_eq_zero (by rw [sub_eq_add_neg]; exact h2)

/-- a vector of `2 n` entries from its halves -/
def joined {X : Type} (n : Nat) (l r : Nat → X) (i : Nat) : X := if i < n then l i else r (i - n)

theorem joined_left {X : Type} (n : Nat) (l r : Nat → X) {i : Nat} (h : i < n) : joined n l r i = l i :=
  if_pos h

theorem joined_right {X : Type} (n : Nat) (l r : Nat → X) (i : Nat) : joined n l r (i + n) = r i := by
  unfold joined
  rw [if_neg (by omega), Nat.add_sub_cancel]

theorem sum_double {M : Type} [AddCommMonoid M] (n : Nat) (f : Nat → M) :
    ∑ i ∈ range (n + n), f i = ∑ i ∈ range n, (f i + f (i + n)) := by
  rw [Finset.sum_range_add, Finset.sum_add_distrib]
  simp only [Nat.add_comm]

/-- a commitment under the folded key is one under the key -/
theorem keyCommit_fold (k : Nat) (c : F) (hc : c ≠ 0) (φ : Nat → X →ₗ[F] M) (ψ : Nat → Y →ₗ[F] M)
    (x : Nat → X) (y : Nat → Y) :
    keyCommit (2 ^ k) (foldHalf k c⁻¹ φ) (foldHalf k c ψ) x y =
      keyCommit (2 ^ (k + 1)) φ ψ (joined (2 ^ k) x (fun i => c⁻¹ • x i))
        (joined (2 ^ k) y (fun i => c • y i)) := by
  unfold keyCommit
  rw [pow_succ, Nat.mul_two, sum_double]
  refine Finset.sum_congr rfl fun i hi => ?_
  have hi' := Finset.mem_range.mp hi
  rw [joined_left _ _ _ hi', joined_left _ _ _ hi', joined_right, joined_right]
  simp only [foldHalf, LinearMap.add_apply, LinearMap.smul_apply, map_smul]
  abel

theorem KeyBinding.fold {k : Nat} {φ : Nat → X →ₗ[F] M} {ψ : Nat → Y →ₗ[F] M}
    (h : KeyBinding (2 ^ (k + 1)) φ ψ) (c : F) (hc : c ≠ 0) :
    KeyBinding (2 ^ k) (foldHalf k c⁻¹ φ) (foldHalf k c ψ) := by
  intro x y hxy i hi
  rw [keyCommit_fold k c hc] at hxy
  have := h _ _ hxy i (by rw [pow_succ]; omega)
  rwa [joined_left _ _ _ hi, joined_left _ _ _ hi] at this

theorem combinedValue_cons {G : Type} [AddCommGroup G] [Module F G] (T : G) (lr : G × G) (LR : List (G × G))
    (x : F) (xs : List F) :
    combinedValue T (lr :: LR) (x :: xs) = combinedValue (T + x • lr.1 + x⁻¹ • lr.2) LR xs := by
  simp only [combinedValue, List.zipWith_cons_cons, List.sum_cons]
  abel

theorem smul_three (c : F) (hc : c ≠ 0) (a b d : M) : c • (a + c • b + c⁻¹ • d) = c • a + c ^ 2 • b + d := by
  rw [smul_add, smul_add, smul_smul, smul_smul, mul_inv_cancel₀ hc, one_smul, pow_two]

/-- one level: from openings for four challenges -/
theorem gipa_level (k : Nat) (μ : X →ₗ[F] Y →ₗ[F] Z) (φ : Nat → X →ₗ[F] M) (ψ : Nat → Y →ₗ[F] M)
    (hb : KeyBinding (2 ^ (k + 1)) φ ψ) (c : Fin 4 → F) (hc : Function.Injective c) (h0 : ∀ j, c j ≠ 0)
    (T L R : M) (V LZ RZ : Z) (x : Fin 4 → Nat → X) (y : Fin 4 → Nat → Y)
    (hT : ∀ j, keyCommit (2 ^ k) (foldHalf k (c j)⁻¹ φ) (foldHalf k (c j) ψ) (x j) (y j) =
      T + c j • L + (c j)⁻¹ • R)
    (hV : ∀ j, ∑ i ∈ range (2 ^ k), μ (x j i) (y j i) = V + c j • LZ + (c j)⁻¹ • RZ) :
    ∃ X0 Y0, keyCommit (2 ^ (k + 1)) φ ψ X0 Y0 = T ∧ ∑ i ∈ range (2 ^ (k + 1)), μ (X0 i) (Y0 i) = V := by
  obtain ⟨s, hs⟩ := exists_weights c hc
  set n := 2 ^ k with hn
  have hn2 : 2 ^ (k + 1) = n + n := by rw [pow_succ]; omega
  -- openings of `T`, `L`, `R`
  have op : ∀ e : Fin 4, keyCommit (2 ^ (k + 1)) φ ψ
      (fun i => ∑ j, (s e j * c j) • joined n (x j) (fun i => (c j)⁻¹ • x j i) i)
      (fun i => ∑ j, (s e j * c j) • joined n (y j) (fun i => c j • y j i) i) =
      (if e = 0 then (1 : F) else 0) • R + (if e = 1 then (1 : F) else 0) • T +
        (if e = 2 then (1 : F) else 0) • L := by
    intro e
    rw [keyCommit_sum, ← hs e 0, ← hs e 1, ← hs e 2, Finset.sum_smul, Finset.sum_smul, Finset.sum_smul,
      ← Finset.sum_add_distrib, ← Finset.sum_add_distrib]
    refine Finset.sum_congr rfl fun j _ => ?_
    rw [hn, ← keyCommit_fold k _ (h0 j), hT j, smul_add, smul_add, smul_smul, smul_smul, mul_assoc (s e j) (c j) (c j)⁻¹,
      mul_inv_cancel₀ (h0 j)]
    simp only [Fin.val_zero, Fin.val_one, Fin.val_two]
    module
  set XX : Fin 4 → Nat → X := fun e i => ∑ j, (s e j * c j) • joined n (x j) (fun i => (c j)⁻¹ • x j i) i with hXX
  set YY : Fin 4 → Nat → Y := fun e i => ∑ j, (s e j * c j) • joined n (y j) (fun i => c j • y j i) i with hYY
  have oR : keyCommit (2 ^ (k + 1)) φ ψ (XX 0) (YY 0) = R := by simpa using op 0
  have oT : keyCommit (2 ^ (k + 1)) φ ψ (XX 1) (YY 1) = T := by simpa using op 1
  have oL : keyCommit (2 ^ (k + 1)) φ ψ (XX 2) (YY 2) = L := by simpa using op 2
  -- comparison
  have cmp : ∀ j, ∀ i < 2 ^ (k + 1), joined n (x j) (fun i => (c j)⁻¹ • x j i) i =
        XX 1 i + c j • XX 2 i + (c j)⁻¹ • XX 0 i ∧
      joined n (y j) (fun i => c j • y j i) i = YY 1 i + c j • YY 2 i + (c j)⁻¹ • YY 0 i := by
    intro j
    refine hb.unique ?_
    rw [← keyCommit_fold k _ (h0 j), hT j, keyCommit_add, keyCommit_add, keyCommit_smul, keyCommit_smul,
      oR, oT, oL]
  -- the answers are the folded opening
  have fx : ∀ i < n, ∀ j, x j i = XX 1 i + c j • XX 1 (i + n) := by
    intro i hi
    have e : ∀ j, XX 0 i + c j • (XX 1 i - XX 0 (i + n)) + c j ^ 2 • (XX 2 i - XX 1 (i + n)) +
        c j ^ 3 • (-XX 2 (i + n)) = 0 := by
      intro j
      have h1 := (cmp j i (by omega)).1
      have h2 := (cmp j (i + n) (by omega)).1
      rw [joined_left _ _ _ hi] at h1
      rw [joined_right] at h2
      have h3 : x j i = c j • ((c j)⁻¹ • x j i) := by rw [smul_smul, mul_inv_cancel₀ (h0 j), one_smul]
      rw [h2, h1] at h3
      have h4 : c j • (XX 1 i + c j • XX 2 i + (c j)⁻¹ • XX 0 i) =
          c j • (c j • (XX 1 (i + n) + c j • XX 2 (i + n) + (c j)⁻¹ • XX 0 (i + n))) := by rw [← h3]
      have hi1 : c j * (c j)⁻¹ = 1 := mul_inv_cancel₀ (h0 j)
      have h5 : c j • (XX 1 i + c j • XX 2 i + (c j)⁻¹ • XX 0 i) = c j • XX 1 i + c j ^ 2 • XX 2 i + XX 0 i := by
        rw [smul_add, smul_add, smul_smul, smul_smul, hi1, one_smul, pow_two]
      have h6 : c j • (c j • (XX 1 (i + n) + c j • XX 2 (i + n) + (c j)⁻¹ • XX 0 (i + n))) =
          c j ^ 2 • XX 1 (i + n) + c j ^ 3 • XX 2 (i + n) + c j • XX 0 (i + n) := by
        rw [smul_three _ (h0 j)]
        module
      rw [h5, h6] at h4
      rw [← sub_eq_zero] at h4
      rw [← h4]
      module
    obtain ⟨e0, e1, e2, e3⟩ := module_cubic c hc _ _ _ _ e
    intro j
    have h1 := (cmp j i (by omega)).1
    rw [joined_left _ _ _ hi] at h1
    rw [h1, e0, sub_eq_zero.mp e2]
    module
  have fy : ∀ i < n, ∀ j, y j i = YY 1 i + (c j)⁻¹ • YY 1 (i + n) := by
    intro i hi
    have e : ∀ j, -YY 0 (i + n) + c j • (YY 0 i - YY 1 (i + n)) + c j ^ 2 • (YY 1 i - YY 2 (i + n)) +
        c j ^ 3 • (YY 2 i) = 0 := by
      intro j
      have h1 := (cmp j i (by omega)).2
      have h2 := (cmp j (i + n) (by omega)).2
      rw [joined_left _ _ _ hi] at h1
      rw [joined_right, h1] at h2
      have hi1 : c j * (c j)⁻¹ = 1 := mul_inv_cancel₀ (h0 j)
      have h4 := congrArg (fun v => c j • v) h2
      have h5 : c j • (c j • (YY 1 i + c j • YY 2 i + (c j)⁻¹ • YY 0 i)) =
          c j ^ 2 • YY 1 i + c j ^ 3 • YY 2 i + c j • YY 0 i := by
        rw [smul_three _ (h0 j)]
        module
      have h6 : c j • (YY 1 (i + n) + c j • YY 2 (i + n) + (c j)⁻¹ • YY 0 (i + n)) =
          c j • YY 1 (i + n) + c j ^ 2 • YY 2 (i + n) + YY 0 (i + n) := by
        rw [smul_add, smul_add, smul_smul, smul_smul, hi1, one_smul, pow_two]
      rw [h5, h6] at h4
      rw [← sub_eq_zero] at h4
      rw [← h4]
      module
    obtain ⟨e0, e1, e2, e3⟩ := module_cubic c hc _ _ _ _ e
    intro j
    have h1 := (cmp j i (by omega)).2
    rw [joined_left _ _ _ hi] at h1
    rw [h1, e3, sub_eq_zero.mp e1]
    module
  refine ⟨XX 1, YY 1, oT, ?_⟩
  rw [hn2, sum_double]
  -- the inner product
  have ez : ∀ j, (∑ i ∈ range n, μ (XX 1 i) (YY 1 (i + n)) - RZ) +
      c j • (∑ i ∈ range n, (μ (XX 1 i) (YY 1 i) + μ (XX 1 (i + n)) (YY 1 (i + n))) - V) +
      c j ^ 2 • (∑ i ∈ range n, μ (XX 1 (i + n)) (YY 1 i) - LZ) + c j ^ 3 • (0 : Z) = 0 := by
    intro j
    have hi1 : c j * (c j)⁻¹ = 1 := mul_inv_cancel₀ (h0 j)
    have h1 := hV j
    have h2 : ∑ i ∈ range n, μ (x j i) (y j i) =
        ∑ i ∈ range n, (μ (XX 1 i) (YY 1 i) + μ (XX 1 (i + n)) (YY 1 (i + n))) +
          c j • ∑ i ∈ range n, μ (XX 1 (i + n)) (YY 1 i) +
          (c j)⁻¹ • ∑ i ∈ range n, μ (XX 1 i) (YY 1 (i + n)) := by
      rw [Finset.smul_sum, Finset.smul_sum, ← Finset.sum_add_distrib, ← Finset.sum_add_distrib]
      refine Finset.sum_congr rfl fun i hi => ?_
      rw [fx i (Finset.mem_range.mp hi) j, fy i (Finset.mem_range.mp hi) j]
      simp only [map_add, LinearMap.add_apply, map_smul, LinearMap.smul_apply, smul_add, smul_smul, hi1,
        inv_mul_cancel₀ (h0 j), one_smul]
      abel
    rw [h2] at h1
    have h3 := congrArg (fun v => c j • v) h1
    simp only [smul_add, smul_smul, hi1, one_smul] at h3
    rw [← sub_eq_zero] at h3
    rw [smul_zero, add_zero, ← h3]
    module
  obtain ⟨-, e1, -, -⟩ := module_cubic c hc _ _ _ _ ez
  exact sub_eq_zero.mp e1

/-- a tree of transcripts yields an opening -/
theorem gipa_extract (μ : X →ₗ[F] Y →ₗ[F] Z) (lm : Msg → M × M) (lz : Msg → Z × Z) (ax : Leaf → X)
    (ay : Leaf → Y) : ∀ {k : Nat} (t : RoundTree F Msg Leaf k) (φ : Nat → X →ₗ[F] M) (ψ : Nat → Y →ₗ[F] M)
    (T : M) (V : Z), KeyBinding (2 ^ k) φ ψ → t.Distinct →
    t.AllPaths (fun ms xs a =>
      foldVector (xs.map (·⁻¹)) φ (ax a) + foldVector xs ψ (ay a) = combinedValue T (ms.map lm) xs ∧
      μ (ax a) (ay a) = combinedValue V (ms.map lz) xs) →
    ∃ x y, keyCommit (2 ^ k) φ ψ x y = T ∧ ∑ i ∈ range (2 ^ k), μ (x i) (y i) = V
  | _, .leaf a, φ, ψ, T, V, _, _, ⟨h1, h2⟩ => by
    refine ⟨fun _ => ax a, fun _ => ay a, ?_, ?_⟩
    · simpa [keyCommit, foldVector, combinedValue] using h1
    · simpa [combinedValue] using h2
  | _, .node (k := k) m x sub, φ, ψ, T, V, hb, ⟨hx, h0, hd⟩, hp => by
    have step : ∀ j, ∃ X0 Y0, keyCommit (2 ^ k) (foldHalf k (x j)⁻¹ φ) (foldHalf k (x j) ψ) X0 Y0 =
        T + x j • (lm m).1 + (x j)⁻¹ • (lm m).2 ∧
        ∑ i ∈ range (2 ^ k), μ (X0 i) (Y0 i) = V + x j • (lz m).1 + (x j)⁻¹ • (lz m).2 := by
      intro j
      refine gipa_extract μ lm lz ax ay (sub j) _ _ _ _ (hb.fold (x j) (h0 j)) (hd j)
        (RoundTree.AllPaths.imp _ (hp j) fun ms xs a hl hl' hq => ?_)
      obtain ⟨q1, q2⟩ := hq
      simp only [List.map_cons, combinedValue_cons] at q1 q2
      refine ⟨?_, q2⟩
      rw [← q1, foldVector, foldVector, List.length_map, hl']
    choose X0 Y0 h1 h2 using step
    exact gipa_level k μ φ ψ hb x hx h0 T _ _ V _ _ X0 Y0 h1 h2

end Crypto3Zk
