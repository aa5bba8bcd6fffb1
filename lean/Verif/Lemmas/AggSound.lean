import Verif.Lemmas.GipaSound

/-!
# Lemmas: extraction from aggregates of Groth16 proofs
-/

set_option linter.unusedSectionVars false

namespace Crypto3Zk

open Finset

variable {F : Type} [Field F] {M N Msg Leaf : Type} [AddCommGroup M] [Module F M] [AddCommGroup N]
  [Module F N]

theorem foldVector_map (L : M →ₗ[F] N) : ∀ (xs : List F) (u : Nat → M),
    L (foldVector xs u) = foldVector xs fun i => L (u i)
  | [], u => rfl
  | x :: xs, u => by
    rw [foldVector, foldVector, foldVector_map L xs]
    congr 1
    funext i
    simp [foldHalf]

/-- folding is a fixed linear combination -/
theorem foldVector_linear : ∀ (xs : List F), ∃ c : Nat → F, ∀ (M : Type) [AddCommGroup M] [Module F M]
    (u : Nat → M), foldVector xs u = ∑ i ∈ range (2 ^ xs.length), c i • u i
  | [] => ⟨fun _ => 1, fun M _ _ u => by simp [foldVector]⟩
  | x :: xs => by
    obtain ⟨c, hc⟩ := foldVector_linear xs
    refine ⟨joined (2 ^ xs.length) c (fun i => x * c i), fun M _ _ u => ?_⟩
    rw [foldVector, hc, List.length_cons, pow_succ, Nat.mul_two, sum_double]
    refine Finset.sum_congr rfl fun i hi => ?_
    rw [joined_left _ _ _ (Finset.mem_range.mp hi), joined_right, foldHalf, smul_add, smul_smul, mul_comm]

theorem foldVector_power : ∀ (xs : List F) (y : F) (m : M),
    foldVector xs (fun i => y ^ i • m) = foldFactor xs y • m
  | [], y, m => by simp [foldVector, foldFactor]
  | x :: xs, y, m => by
    rw [foldVector]
    have : foldHalf xs.length x (fun i => y ^ i • m) = fun i => y ^ i • ((1 + x * y ^ 2 ^ xs.length) • m) := by
      funext i
      rw [foldHalf, pow_add]
      module
    rw [this, foldVector_power xs, foldFactor, smul_smul, mul_comm]

theorem combinedValue_map (L : M →ₗ[F] N) (T : M) (LR : List (M × M)) (xs : List F) :
    L (combinedValue T LR xs) = combinedValue (L T) (LR.map fun lr => (L lr.1, L lr.2)) xs := by
  induction LR generalizing T xs with
  | nil => simp [combinedValue]
  | cons lr LR ih =>
    cases xs with
    | nil => simp [combinedValue]
    | cons x xs =>
      rw [combinedValue_cons, ih, List.map_cons, combinedValue_cons, map_add, map_add, map_smul, map_smul]

theorem RoundTree.AllPaths.exists : ∀ {k : Nat} (t : RoundTree F Msg Leaf k)
    {Q : List Msg → List F → Leaf → Prop}, t.AllPaths Q → ∃ ms xs a, xs.length = k ∧ Q ms xs a
  | _, .leaf a, _, h => ⟨[], [], a, rfl, h⟩
  | _, .node m x sub, _, h => by
    obtain ⟨ms, xs, a, hl, hq⟩ := RoundTree.AllPaths.exists (sub 0) (h 0)
    exact ⟨m :: ms, x 0 :: xs, a, by simp [hl], hq⟩

/-- the answers at the end of the paths become part of the tree -/
theorem RoundTree.choose {Leaf' : Type} : ∀ {k : Nat} (t : RoundTree F Msg Leaf k)
    {Q : List Msg → List F → Leaf → Leaf' → Prop}, t.Distinct →
    t.AllPaths (fun ms xs a => ∃ b, Q ms xs a b) →
    ∃ t' : RoundTree F Msg (Leaf × Leaf') k, t'.Distinct ∧ t'.AllPaths fun ms xs ab => Q ms xs ab.1 ab.2
  | _, .leaf a, _, _, h => by
    obtain ⟨b, hb⟩ := h
    exact ⟨.leaf (a, b), trivial, hb⟩
  | _, .node m x sub, Q, hdist, h => by
    obtain ⟨hx, h0, hd⟩ := hdist
    have step : ∀ i, _ := fun i => RoundTree.choose (sub i) (Q := fun ms xs => Q (m :: ms) (x i :: xs))
      (hd i) (h i)
    choose t' h1 h2 using step
    exact ⟨.node m x t', ⟨hx, h0, h1⟩, h2⟩

theorem RoundTree.replace {Leaf' : Type} : ∀ {k : Nat} (t : RoundTree F Msg Leaf k)
    {Q : List Msg → List F → Leaf' → Prop}, t.Distinct →
    t.AllPaths (fun ms xs _ => ∃ b, Q ms xs b) →
    ∃ t' : RoundTree F Msg Leaf' k, t'.Distinct ∧ t'.AllPaths Q
  | _, .leaf a, _, _, h => by
    obtain ⟨b, hb⟩ := h
    exact ⟨.leaf b, trivial, hb⟩
  | _, .node m x sub, Q, hdist, h => by
    obtain ⟨hx, h0, hd⟩ := hdist
    have step : ∀ i, _ := fun i => RoundTree.replace (sub i) (Q := fun ms xs => Q (m :: ms) (x i :: xs))
      (hd i) (h i)
    choose t' h1 h2 using step
    exact ⟨.node m x t', ⟨hx, h0, h1⟩, h2⟩

/-- the prover that knows the vectors answers -/
theorem gipa_complete {X Y Z : Type} [AddCommGroup X] [Module F X] [AddCommGroup Y] [Module F Y]
    [AddCommGroup Z] [Module F Z] (μ : X →ₗ[F] Y →ₗ[F] Z) (mk : (M × M) → (Z × Z) → Msg) (lm : Msg → M × M)
    (lz : Msg → Z × Z) (h1 : ∀ a b, lm (mk a b) = a) (h2 : ∀ a b, lz (mk a b) = b) (c : Fin 4 → F)
    (hc : Function.Injective c) (h0 : ∀ j, c j ≠ 0) : ∀ (k : Nat) (φ : Nat → X →ₗ[F] M) (ψ : Nat → Y →ₗ[F] M)
    (x : Nat → X) (y : Nat → Y), ∃ t : RoundTree F Msg (X × Y) k, t.Distinct ∧
    t.AllPaths (fun ms xs a =>
      foldVector (xs.map (·⁻¹)) φ a.1 + foldVector xs ψ a.2 =
        combinedValue (keyCommit (2 ^ k) φ ψ x y) (ms.map lm) xs ∧
      μ a.1 a.2 = combinedValue (∑ i ∈ range (2 ^ k), μ (x i) (y i)) (ms.map lz) xs)
  | 0, φ, ψ, x, y => ⟨.leaf (x 0, y 0), trivial, by simp [keyCommit, foldVector, combinedValue],
      by simp [combinedValue]⟩
  | k + 1, φ, ψ, x, y => by
    set n := 2 ^ k with hn
    have step : ∀ j, _ := fun j => gipa_complete μ mk lm lz h1 h2 c hc h0 k (foldHalf k (c j)⁻¹ φ)
      (foldHalf k (c j) ψ) (foldHalf k (c j) x) (foldHalf k (c j)⁻¹ y)
    choose t ht hp using step
    refine ⟨.node (mk (∑ i ∈ range n, (φ i (x (i + n)) + ψ (i + n) (y i)),
        ∑ i ∈ range n, (φ (i + n) (x i) + ψ i (y (i + n))))
      (∑ i ∈ range n, μ (x (i + n)) (y i), ∑ i ∈ range n, μ (x i) (y (i + n)))) c t, ⟨hc, h0, ht⟩, fun j => ?_⟩
    refine RoundTree.AllPaths.imp _ (hp j) fun ms xs a _ hl' hq => ?_
    obtain ⟨q1, q2⟩ := hq
    have hi1 : c j * (c j)⁻¹ = 1 := mul_inv_cancel₀ (h0 j)
    have hi2 : (c j)⁻¹ * c j = 1 := inv_mul_cancel₀ (h0 j)
    have e1 : keyCommit n (foldHalf k (c j)⁻¹ φ) (foldHalf k (c j) ψ) (foldHalf k (c j) x)
        (foldHalf k (c j)⁻¹ y) = keyCommit (2 ^ (k + 1)) φ ψ x y +
          c j • ∑ i ∈ range n, (φ i (x (i + n)) + ψ (i + n) (y i)) +
          (c j)⁻¹ • ∑ i ∈ range n, (φ (i + n) (x i) + ψ i (y (i + n))) := by
      unfold keyCommit
      rw [pow_succ, Nat.mul_two, sum_double, Finset.smul_sum, Finset.smul_sum, ← Finset.sum_add_distrib,
        ← Finset.sum_add_distrib]
      refine Finset.sum_congr rfl fun i _ => ?_
      simp only [foldHalf, LinearMap.add_apply, LinearMap.smul_apply, map_add, map_smul, smul_add, smul_smul,
        hi1, hi2, one_smul, ← hn]
      abel
    have e2 : ∑ i ∈ range n, μ (foldHalf k (c j) x i) (foldHalf k (c j)⁻¹ y i) =
        ∑ i ∈ range (2 ^ (k + 1)), μ (x i) (y i) + c j • ∑ i ∈ range n, μ (x (i + n)) (y i) +
          (c j)⁻¹ • ∑ i ∈ range n, μ (x i) (y (i + n)) := by
      rw [pow_succ, Nat.mul_two, sum_double, Finset.smul_sum, Finset.smul_sum, ← Finset.sum_add_distrib,
        ← Finset.sum_add_distrib]
      refine Finset.sum_congr rfl fun i _ => ?_
      simp only [foldHalf, LinearMap.add_apply, LinearMap.smul_apply, map_add, map_smul, smul_add, smul_smul,
        hi1, hi2, one_smul, ← hn]
      abel
    rw [e1] at q1
    rw [e2] at q2
    simp only [List.map_cons, combinedValue_cons, h1, h2]
    refine ⟨?_, q2⟩
    rw [← q1, foldVector, foldVector, List.length_map, hl']

/-! ## The final keys -/

section keys
variable {G1 G2 GT : Type} [AddCommGroup G1] [Module F G1] [AddCommGroup G2] [Module F G2]
  [AddCommGroup GT] [Module F GT]

/-- the powers minus the powers of `z` are divisible by `α - z` -/
theorem power_divides (e : G1 →ₗ[F] G2 →ₗ[F] GT) (g gs : G1) (v : Nat → G2) (n : Nat)
    (hv : ∀ i, i + 1 < n → e g (v (i + 1)) = e gs (v i)) (z : F) :
    ∀ i, i < n → ∃ O, e g (v i - z ^ i • v 0) = e (gs - z • g) O
  | 0, _ => ⟨0, by simp⟩
  | i + 1, hi => by
    obtain ⟨O, hO⟩ := power_divides e g gs v n hv z i (by omega)
    refine ⟨v i + z • O, ?_⟩
    rw [map_add, map_smul, ← hO, map_sub, hv i hi]
    simp only [map_sub, map_smul, LinearMap.sub_apply, LinearMap.smul_apply]
    rw [pow_succ]
    module

/-- a final key that opens to the value of the folding polynomial at many points is the folded key -/
theorem final_key (e : G1 →ₗ[F] G2 →ₗ[F] GT) (g gs : G1) (v : Nat → G2) (n m d : Nat) (t : F)
    (hv : ∀ i, i + 1 < n → e g (v (i + 1)) = e gs (v i)) (xs : List F) (hm : m + 2 ^ xs.length ≤ n)
    (hb : ∀ D : G2, D ≠ 0 → ∃ S : Finset F, S.card ≤ d ∧ ∀ z O, e g D = e (gs - z • g) O → z ∈ S)
    (V : G2) (S : Finset F) (hS : d < S.card)
    (hV : ∀ z ∈ S, ∃ O, e g (V - (foldFactor xs (z * t) * z ^ m) • v 0) = e (gs - z • g) O) :
    V = foldVector xs fun i => t ^ i • v (m + i) := by
  by_contra hne
  obtain ⟨B, hB, hz⟩ := hb _ (sub_ne_zero.mpr hne)
  obtain ⟨c, hc⟩ := foldVector_linear xs
  refine absurd (Finset.card_le_card (s := S) (t := B) fun z hzS => ?_) (by omega)
  obtain ⟨O, hO⟩ := hV z hzS
  have hd : ∀ i, ∃ O, i < n → e g (v i - z ^ i • v 0) = e (gs - z • g) O := by
    intro i
    by_cases hi : i < n
    · obtain ⟨O, h⟩ := power_divides e g gs v n hv z i hi
      exact ⟨O, fun _ => h⟩
    · exact ⟨0, fun h => absurd h hi⟩
  choose q hq using hd
  refine hz z (O - ∑ i ∈ range (2 ^ xs.length), c i • t ^ i • q (m + i)) ?_
  have h1 : V - foldVector xs (fun i => t ^ i • v (m + i)) =
      (V - (foldFactor xs (z * t) * z ^ m) • v 0) -
        ∑ i ∈ range (2 ^ xs.length), c i • t ^ i • (v (m + i) - z ^ (m + i) • v 0) := by
    have h2 : (foldFactor xs (z * t) * z ^ m) • v 0 =
        ∑ i ∈ range (2 ^ xs.length), c i • t ^ i • z ^ (m + i) • v 0 := by
      rw [mul_smul, ← foldVector_power, hc]
      refine Finset.sum_congr rfl fun i _ => ?_
      rw [mul_pow, pow_add]
      module
    have h3 : ∑ i ∈ range (2 ^ xs.length), c i • t ^ i • (v (m + i) - z ^ (m + i) • v 0) =
        foldVector xs (fun i => t ^ i • v (m + i)) - (foldFactor xs (z * t) * z ^ m) • v 0 := by
      rw [h2, hc, ← Finset.sum_sub_distrib]
      refine Finset.sum_congr rfl fun i _ => ?_
      module
    rw [h3]
    abel
  rw [h1, map_sub (e g), hO, map_sub (e (gs - z • g)), map_sum, map_sum]
  congr 1
  refine Finset.sum_congr rfl fun i hi => ?_
  have := Finset.mem_range.mp hi
  rw [map_smul (e g), map_smul (e g), map_smul (e (gs - z • g)), map_smul (e (gs - z • g)), hq (m + i) (by omega)]

/-- the folded key opens to the value of the folding polynomial at every point -/
theorem final_key_opens (e : G1 →ₗ[F] G2 →ₗ[F] GT) (g gs : G1) (v : Nat → G2) (n m : Nat) (t : F)
    (hv : ∀ i, i + 1 < n → e g (v (i + 1)) = e gs (v i)) (xs : List F) (hm : m + 2 ^ xs.length ≤ n) (z : F) :
    ∃ O, e g ((foldVector xs fun i => t ^ i • v (m + i)) - (foldFactor xs (z * t) * z ^ m) • v 0) =
      e (gs - z • g) O := by
  obtain ⟨c, hc⟩ := foldVector_linear xs
  have hd : ∀ i, ∃ O, i < n → e g (v i - z ^ i • v 0) = e (gs - z • g) O := by
    intro i
    by_cases hi : i < n
    · obtain ⟨O, h⟩ := power_divides e g gs v n hv z i hi
      exact ⟨O, fun _ => h⟩
    · exact ⟨0, fun h => absurd h hi⟩
  choose q hq using hd
  refine ⟨∑ i ∈ range (2 ^ xs.length), c i • t ^ i • q (m + i), ?_⟩
  have h2 : (foldFactor xs (z * t) * z ^ m) • v 0 =
      ∑ i ∈ range (2 ^ xs.length), c i • t ^ i • z ^ (m + i) • v 0 := by
    rw [mul_smul, ← foldVector_power, hc]
    refine Finset.sum_congr rfl fun i _ => ?_
    rw [mul_pow, pow_add]
    module
  rw [h2, hc, ← Finset.sum_sub_distrib, map_sum, map_sum]
  refine Finset.sum_congr rfl fun i hi => ?_
  have := Finset.mem_range.mp hi
  rw [← smul_sub, ← smul_sub, map_smul (e g), map_smul (e g), map_smul (e (gs - z • g)),
    map_smul (e (gs - z • g)), hq (m + i) (by omega)]

/-! ## The commitments as one commitment -/

/-- the key for `(A, C)`: the two commitments to `A`, the two commitments to `C`, the combination of `C` -/
def aggPhi (P : Pairing F G1 G2 GT) (K : AggPowers G1 G2) (r : F) (i : Nat) :
    G1 × G1 →ₗ[F] ((GT × GT) × (GT × GT)) × G1 :=
  ((((P.e.flip (K.v1 i)).comp (LinearMap.fst F G1 G1)).prod ((P.e.flip (K.v2 i)).comp (LinearMap.fst F G1 G1))).prod
    (((P.e.flip (K.v1 i)).comp (LinearMap.snd F G1 G1)).prod
      ((P.e.flip (K.v2 i)).comp (LinearMap.snd F G1 G1)))).prod (r ^ i • LinearMap.snd F G1 G1)

/-- the key for `B` -/
def aggPsi (P : Pairing F G1 G2 GT) (K : AggPowers G1 G2) (n : Nat) (r : F) (i : Nat) :
    G2 →ₗ[F] ((GT × GT) × (GT × GT)) × G1 :=
  (((P.e (r⁻¹ ^ i • K.w1 (n + i))).prod (P.e (r⁻¹ ^ i • K.w2 (n + i)))).prod 0).prod 0

theorem aggPhi_apply (P : Pairing F G1 G2 GT) (K : AggPowers G1 G2) (r : F) (i : Nat) (a c : G1) :
    aggPhi P K r i (a, c) = (((P.e a (K.v1 i), P.e a (K.v2 i)), (P.e c (K.v1 i), P.e c (K.v2 i))), r ^ i • c) := rfl

theorem aggPsi_apply (P : Pairing F G1 G2 GT) (K : AggPowers G1 G2) (n : Nat) (r : F) (i : Nat) (b : G2) :
    aggPsi P K n r i b = (((P.e (r⁻¹ ^ i • K.w1 (n + i)) b, P.e (r⁻¹ ^ i • K.w2 (n + i)) b), 0), 0) := rfl

theorem rounds_parts (p : GipaProof G1 G2 GT) (ms : List (GipaRound G1 GT)) (h : p.rounds = some ms) :
    p.commsAB = ms.map (fun m => (m.tabL, m.tabR)) ∧ p.commsC = ms.map (fun m => (m.tucL, m.tucR)) ∧
    p.zAB = ms.map (fun m => (m.zabL, m.zabR)) ∧ p.zC = ms.map (fun m => (m.zcL, m.zcR)) := by
  unfold GipaProof.rounds at h
  split at h
  next hl =>
    obtain ⟨l1, l2, l3⟩ := hl
    rw [Option.some.injEq] at h
    subst h
    refine ⟨?_, ?_, ?_, ?_⟩ <;>
    · refine List.ext_getElem (by simp; omega) fun i h1 h2 => ?_
      simp
  · exact absurd h (by simp)

/-- without non-zero vectors of commitment zero, the joint key is binding -/
theorem aggKey_binding (P : Pairing F G1 G2 GT) (K : AggPowers G1 G2) (s : AggVerificationSrs G1 G2)
    (n d : Nat) (hB : AggBinding K P s n d) (r : F) (hr : r ≠ 0) :
    KeyBinding n (aggPhi P K r) (aggPsi P K n r) := by
  intro x y h
  have h11 := congrArg (fun v => v.1.1.1) h
  have h12 := congrArg (fun v => v.1.1.2) h
  have h21 := congrArg (fun v => v.1.2.1) h
  have h22 := congrArg (fun v => v.1.2.2) h
  have e : ∀ i, aggPhi P K r i (x i) + aggPsi P K n r i (y i) =
      (((P.e (x i).1 (K.v1 i) + P.e (K.w1 (n + i)) (r⁻¹ ^ i • y i),
        P.e (x i).1 (K.v2 i) + P.e (K.w2 (n + i)) (r⁻¹ ^ i • y i)),
        (P.e (x i).2 (K.v1 i), P.e (x i).2 (K.v2 i))), r ^ i • (x i).2) := by
    intro i
    have : x i = ((x i).1, (x i).2) := rfl
    rw [this, aggPhi_apply, aggPsi_apply]
    simp
  simp only [keyCommit, e, Prod.fst_sum, Prod.snd_sum, Prod.fst_zero, Prod.snd_zero] at h11 h12 h21 h22
  intro i hi
  obtain ⟨hA, hBi⟩ := hB.commit (fun i => (x i).1) (fun i => r⁻¹ ^ i • y i) ⟨h11.symm, h12.symm⟩ i hi
  obtain ⟨hC, -⟩ := hB.commit (fun i => (x i).2) (fun _ => 0)
    ⟨by simpa using h21.symm, by simpa using h22.symm⟩ i hi
  refine ⟨Prod.ext hA hC, ?_⟩
  rcases smul_eq_zero.mp hBi with h0 | h0
  · exact absurd h0 (pow_ne_zero _ (inv_ne_zero hr))
  · exact h0

/-- the joint equation says what the equations of the verifier say -/
theorem agg_components (P : Pairing F G1 G2 GT) (K : AggPowers G1 G2) (n : Nat) (r : F) (xs : List F)
    (ms : List (GipaRound G1 GT)) (comAB comC : GT × GT) (aggC A C : G1) (B : G2) :
    foldVector (xs.map (·⁻¹)) (aggPhi P K r) (A, C) + foldVector xs (aggPsi P K n r) B =
      combinedValue ((comAB, comC), aggC) (ms.map fun m =>
        (((m.tabL, m.tucL), m.zcL), ((m.tabR, m.tucR), m.zcR))) xs ↔
    P.e A (foldVector (xs.map (·⁻¹)) K.v1) + P.e (foldVector xs fun i => r⁻¹ ^ i • K.w1 (n + i)) B =
      combinedValue comAB.1 (ms.map fun m => (m.tabL.1, m.tabR.1)) xs ∧
    P.e A (foldVector (xs.map (·⁻¹)) K.v2) + P.e (foldVector xs fun i => r⁻¹ ^ i • K.w2 (n + i)) B =
      combinedValue comAB.2 (ms.map fun m => (m.tabL.2, m.tabR.2)) xs ∧
    P.e C (foldVector (xs.map (·⁻¹)) K.v1) = combinedValue comC.1 (ms.map fun m => (m.tucL.1, m.tucR.1)) xs ∧
    P.e C (foldVector (xs.map (·⁻¹)) K.v2) = combinedValue comC.2 (ms.map fun m => (m.tucL.2, m.tucR.2)) xs ∧
    foldFactor (xs.map (·⁻¹)) r • C = combinedValue aggC (ms.map fun m => (m.zcL, m.zcR)) xs := by
  have ap : ∀ (y : List F) (u : Nat → G1 × G1 →ₗ[F] ((GT × GT) × (GT × GT)) × G1) (x : G1 × G1),
      foldVector y u x = foldVector y fun i => u i x := fun y u x =>
    foldVector_map (LinearMap.applyₗ x) y u
  have ap2 : ∀ (y : List F) (u : Nat → G2 →ₗ[F] ((GT × GT) × (GT × GT)) × G1) (x : G2),
      foldVector y u x = foldVector y fun i => u i x := fun y u x =>
    foldVector_map (LinearMap.applyₗ x) y u
  let f1 := LinearMap.fst F ((GT × GT) × (GT × GT)) G1
  let f11 := (LinearMap.fst F (GT × GT) (GT × GT)).comp f1
  let f12 := (LinearMap.snd F (GT × GT) (GT × GT)).comp f1
  let f111 := (LinearMap.fst F GT GT).comp f11
  let f112 := (LinearMap.snd F GT GT).comp f11
  let f121 := (LinearMap.fst F GT GT).comp f12
  let f122 := (LinearMap.snd F GT GT).comp f12
  let f2 := LinearMap.snd F ((GT × GT) × (GT × GT)) G1
  rw [ap, ap2]
  have ext : ∀ u v : ((GT × GT) × (GT × GT)) × G1, u = v ↔ f111 u = f111 v ∧ f112 u = f112 v ∧ f121 u = f121 v ∧
      f122 u = f122 v ∧ f2 u = f2 v := fun u v =>
    ⟨fun h => h ▸ ⟨rfl, rfl, rfl, rfl, rfl⟩, fun ⟨a, b, c, d, e⟩ =>
      Prod.ext (Prod.ext (Prod.ext a b) (Prod.ext c d)) e⟩
  have fz : ∀ (N : Type) [AddCommGroup N] [Module F N] (y : List F),
      foldVector y (fun _ => (0 : N)) = 0 := by
    intro N _ _ y
    obtain ⟨c, hc⟩ := foldVector_linear y
    rw [hc]
    simp
  have h1 : foldVector xs (fun i => f121 (aggPsi P K n r i B)) = 0 := fz GT xs
  have h2 : foldVector xs (fun i => f122 (aggPsi P K n r i B)) = 0 := fz GT xs
  have h3 : foldVector xs (fun i => f2 (aggPsi P K n r i B)) = 0 := fz G1 xs
  have g1 : P.e (foldVector xs fun i => r⁻¹ ^ i • K.w1 (n + i)) B =
      foldVector xs fun i => P.e (r⁻¹ ^ i • K.w1 (n + i)) B := foldVector_map (P.e.flip B) xs _
  have g2 : P.e (foldVector xs fun i => r⁻¹ ^ i • K.w2 (n + i)) B =
      foldVector xs fun i => P.e (r⁻¹ ^ i • K.w2 (n + i)) B := foldVector_map (P.e.flip B) xs _
  rw [ext, g1, g2, ← foldVector_power]
  simp only [map_add, foldVector_map, combinedValue_map, List.map_map, h1, h2, h3, add_zero]
  exact Iff.rfl

/-- what one tree of transcripts shows -/
theorem agg_extract (P : Pairing F G1 G2 GT) (s : AggVerificationSrs G1 G2) (vk : AggVK G1 G2)
    (inputs : List (List F)) (K : AggPowers G1 G2) (k d : Nat) (hK : K.Of P s (2 ^ k))
    (hB : AggBinding K P s (2 ^ k) d) (comAB comC : GT × GT) (r : F) (hr : r ≠ 0)
    (h : AnswersTree P s vk inputs comAB comC k d r) :
    ∃ A B C, K.CommitsAB P (2 ^ k) comAB A B ∧ K.CommitsC P (2 ^ k) comC C ∧
      ∑ i ∈ range (2 ^ k), r ^ i • P.e (A i) (B i) =
        P.e ((∑ i : Fin inputs.length, r ^ (i : Nat)) • vk.alphaG1) vk.betaG2 +
        P.e (∑ i : Fin inputs.length, r ^ (i : Nat) • (vk.gammaABC.first +
          (List.zipWith (fun g a => a • g) vk.gammaABC.rest inputs[i]).sum)) vk.gammaG2 +
        P.e (∑ i ∈ range (2 ^ k), r ^ i • C i) vk.deltaG2 := by
  obtain ⟨ipAB, aggC, t, hd, hp⟩ := h
  -- the equation for the inputs
  have hgroth : ipAB = P.e ((∑ i : Fin inputs.length, r ^ (i : Nat)) • vk.alphaG1) vk.betaG2 +
        P.e (∑ i : Fin inputs.length, r ^ (i : Nat) • (vk.gammaABC.first +
          (List.zipWith (fun g a => a • g) vk.gammaABC.rest inputs[i]).sum)) vk.gammaG2 +
        P.e aggC vk.deltaG2 := by
    obtain ⟨ms, xs, a, -, S, hS, hz⟩ := RoundTree.AllPaths.exists t hp
    obtain ⟨z, hzS⟩ := Finset.card_pos.mp (Nat.lt_of_le_of_lt (Nat.zero_le d) hS)
    obtain ⟨p, -, -, rfl, rfl, -, -, -, heq⟩ := hz z hzS
    exact heq.groth
  -- the answers
  obtain ⟨t', hd', hp'⟩ := RoundTree.choose (Leaf' := (G1 × G1) × G2) t
    (Q := fun ms xs _ abc =>
      foldVector (xs.map (·⁻¹)) (aggPhi P K r) abc.1 + foldVector xs (aggPsi P K (2 ^ k) r) abc.2 =
        combinedValue ((comAB, comC), aggC) (ms.map fun m =>
          (((m.tabL, m.tucL), m.zcL), ((m.tabR, m.tucR), m.zcR))) xs ∧
      (P.e.comp (LinearMap.fst F G1 G1)) abc.1 abc.2 =
        combinedValue ipAB (ms.map fun m => (m.zabL, m.zabR)) xs) hd
    (RoundTree.AllPaths.imp t hp fun ms xs keys hl hl' hq => by
      obtain ⟨S, hS, hz⟩ := hq
      have kv1 : keys.1.1 = foldVector (xs.map (·⁻¹)) K.v1 := by
        have := final_key P.e s.g s.gAlpha K.v1 (2 ^ k) 0 d 1 hK.v1_succ (xs.map (·⁻¹))
          (by rw [List.length_map, hl']; omega) hB.v1 keys.1.1 S hS (fun z hzS => by
            obtain ⟨p, -, -, -, -, -, hk1, hk2, heq⟩ := hz z hzS
            refine ⟨p.vkeyOpening.1, ?_⟩
            rw [← hk1, hK.v1_zero, ← heq.v1, mul_one, pow_zero, mul_one])
        simpa using this
      have kv2 : keys.1.2 = foldVector (xs.map (·⁻¹)) K.v2 := by
        have := final_key P.e s.g s.gBeta K.v2 (2 ^ k) 0 d 1 hK.v2_succ (xs.map (·⁻¹))
          (by rw [List.length_map, hl']; omega) hB.v2 keys.1.2 S hS (fun z hzS => by
            obtain ⟨p, -, -, -, -, -, hk1, hk2, heq⟩ := hz z hzS
            refine ⟨p.vkeyOpening.2, ?_⟩
            rw [← hk1, hK.v2_zero, ← heq.v2, mul_one, pow_zero, mul_one])
        simpa using this
      have kw1 : keys.2.1 = foldVector xs fun i => r⁻¹ ^ i • K.w1 (2 ^ k + i) := by
        refine final_key P.e.flip s.h s.hAlpha K.w1 (2 * 2 ^ k) (2 ^ k) d r⁻¹ (fun i hi => hK.w1_succ i hi) xs
          (by rw [hl']; omega) hB.w1 keys.2.1 S hS (fun z hzS => ?_)
        obtain ⟨p, -, -, -, -, -, hk1, hk2, heq⟩ := hz z hzS
        refine ⟨p.wkeyOpening.1, ?_⟩
        have := heq.w1
        rw [hk2, hK.size] at this
        rw [hK.w1_zero, LinearMap.flip_apply, LinearMap.flip_apply]
        exact this
      have kw2 : keys.2.2 = foldVector xs fun i => r⁻¹ ^ i • K.w2 (2 ^ k + i) := by
        refine final_key P.e.flip s.h s.hBeta K.w2 (2 * 2 ^ k) (2 ^ k) d r⁻¹ (fun i hi => hK.w2_succ i hi) xs
          (by rw [hl']; omega) hB.w2 keys.2.2 S hS (fun z hzS => ?_)
        obtain ⟨p, -, -, -, -, -, hk1, hk2, heq⟩ := hz z hzS
        refine ⟨p.wkeyOpening.2, ?_⟩
        have := heq.w2
        rw [hk2, hK.size] at this
        rw [hK.w2_zero, LinearMap.flip_apply, LinearMap.flip_apply]
        exact this
      obtain ⟨z, hzS⟩ := Finset.card_pos.mp (Nat.lt_of_le_of_lt (Nat.zero_le d) hS)
      obtain ⟨p, rfl, rfl, rfl, rfl, hms, hk1, hk2, heq⟩ := hz z hzS
      obtain ⟨r1, r2, r3, r4⟩ := rounds_parts p.gipa ms hms
      refine ⟨((p.gipa.finalA, p.gipa.finalC), p.gipa.finalB), ?_, ?_⟩
      · rw [agg_components]
        refine ⟨?_, ?_, ?_, ?_, ?_⟩
        · have := heq.tab
          rwa [hk1, hk2, kv1, kw1, r1, List.map_map] at this
        · have := heq.uab
          rwa [hk1, hk2, kv2, kw2, r1, List.map_map] at this
        · have := heq.tc
          rwa [hk1, kv1, r2, List.map_map] at this
        · have := heq.uc
          rwa [hk1, kv2, r2, List.map_map] at this
        · have := heq.zc
          rwa [r4] at this
      · have := heq.zab
        rw [r3] at this
        exact this)
  obtain ⟨x, y, hT, hV⟩ := gipa_extract (P.e.comp (LinearMap.fst F G1 G1)) (fun m : GipaRound G1 GT =>
      (((m.tabL, m.tucL), m.zcL), ((m.tabR, m.tucR), m.zcR))) (fun m => (m.zabL, m.zabR))
    (fun a => a.2.1) (fun a => a.2.2) t' (aggPhi P K r) (aggPsi P K (2 ^ k) r) ((comAB, comC), aggC) ipAB
    (aggKey_binding P K s (2 ^ k) d hB r hr) hd' hp'
  have e : ∀ i, aggPhi P K r i (x i) + aggPsi P K (2 ^ k) r i (y i) =
      (((P.e (x i).1 (K.v1 i) + P.e (K.w1 (2 ^ k + i)) (r⁻¹ ^ i • y i),
        P.e (x i).1 (K.v2 i) + P.e (K.w2 (2 ^ k + i)) (r⁻¹ ^ i • y i)),
        (P.e (x i).2 (K.v1 i), P.e (x i).2 (K.v2 i))), r ^ i • (x i).2) := by
    intro i
    have : x i = ((x i).1, (x i).2) := rfl
    rw [this, aggPhi_apply, aggPsi_apply]
    simp
  have h11 := congrArg (fun v => v.1.1.1) hT
  have h12 := congrArg (fun v => v.1.1.2) hT
  have h21 := congrArg (fun v => v.1.2.1) hT
  have h22 := congrArg (fun v => v.1.2.2) hT
  have h3 := congrArg (fun v => v.2) hT
  simp only [keyCommit, e, Prod.fst_sum, Prod.snd_sum] at h11 h12 h21 h22 h3
  refine ⟨fun i => (x i).1, fun i => r⁻¹ ^ i • y i, fun i => (x i).2, ⟨h11.symm, h12.symm⟩, ⟨h21.symm, h22.symm⟩, ?_⟩
  rw [h3, ← hgroth, ← hV]
  refine Finset.sum_congr rfl fun i _ => ?_
  rw [map_smul, smul_smul, ← mul_pow, mul_inv_cancel₀ hr, one_pow, one_smul]
  rfl

end keys

end Crypto3Zk
