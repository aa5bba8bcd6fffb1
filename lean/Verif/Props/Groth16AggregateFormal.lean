import Verif.Props.Groth16AggregateSound
import Verif.Props.Groth16Linear
import Mathlib.Data.Fintype.Prod

/-!
# Properties: aggregates of a prover that knows representations, at random secrets
-/

set_option linter.unusedSectionVars false

namespace Crypto3Zk

open Polynomial Finset

variable {F : Type} [Field F] {G1 G2 GT : Type} [AddCommGroup G1] [Module F G1] [AddCommGroup G2]
  [Module F G2] [AddCommGroup GT] [Module F GT]

/-- the value of a polynomial at the secrets -/
noncomputable def secretValue (alpha beta : F) : FormalTarget F →ₗ[F] F where
  toFun p := (p.eval (C beta)).eval alpha
  map_add' p q := by simp
  map_smul' c p := by
    have e : c • p = C (C c) * p := by
      rw [Algebra.smul_def]
      rfl
    rw [e]
    simp

theorem secretValue_mul (alpha beta : F) (p q : FormalTarget F) :
    secretValue alpha beta (p * q) = secretValue alpha beta p * secretValue alpha beta q := by
  simp [secretValue]

/-- the element of a group with generator `g` that a polynomial stands for -/
noncomputable def secretPoint {G : Type} [AddCommGroup G] [Module F G] (g : G) (alpha beta : F) :
    FormalTarget F →ₗ[F] G := (secretValue alpha beta).smulRight g

/-- the same for an element without mixed monomials -/
noncomputable def secretElement {G : Type} [AddCommGroup G] [Module F G] (g : G) (d : Nat) (alpha beta : F) :
    formalElements F F d →ₗ[F] G := (secretPoint g alpha beta).comp (formalElements F F d).subtype

/-- the aggregate that a prover sends when the secrets are `alpha` and `beta` -/
def AggProof.mapped {H1 H2 HT : Type} (f1 : G1 → H1) (f2 : G2 → H2) (fT : GT → HT) (p : AggProof G1 G2 GT) :
    AggProof H1 H2 HT :=
  ⟨Prod.map fT fT p.comAB, Prod.map fT fT p.comC, fT p.ipAB, f1 p.aggC,
    ⟨p.gipa.nproofs, p.gipa.commsAB.map (Prod.map (Prod.map fT fT) (Prod.map fT fT)),
      p.gipa.commsC.map (Prod.map (Prod.map fT fT) (Prod.map fT fT)), p.gipa.zAB.map (Prod.map fT fT),
      p.gipa.zC.map (Prod.map f1 f1), f1 p.gipa.finalA, f2 p.gipa.finalB, f1 p.gipa.finalC,
      Prod.map f2 f2 p.gipa.finalVkey, Prod.map f1 f1 p.gipa.finalWkey⟩,
    Prod.map f2 f2 p.vkeyOpening, Prod.map f1 f1 p.wkeyOpening⟩

/-- the verification key when the secrets are `alpha` and `beta` -/
def AggVK.mapped {H1 H2 : Type} (f1 : G1 → H1) (f2 : G2 → H2) (vk : AggVK G1 G2) : AggVK H1 H2 :=
  ⟨f1 vk.alphaG1, f2 vk.betaG2, f2 vk.gammaG2, f2 vk.deltaG2, ⟨f1 vk.gammaABC.first, vk.gammaABC.rest.map f1⟩⟩

/-- polynomials of degree at most `m` in each secret -/
def formalBounded (F : Type) [Field F] (m : Nat) : Submodule F (FormalTarget F) where
  carrier := {p | p.natDegree ≤ m ∧ ∀ j, (p.coeff j).natDegree ≤ m}
  add_mem' {p q} hp hq := ⟨(natDegree_add_le _ _).trans (max_le hp.1 hq.1), fun j => by
    rw [coeff_add]
    exact (natDegree_add_le _ _).trans (max_le (hp.2 j) (hq.2 j))⟩
  zero_mem' := ⟨by simp, by simp⟩
  smul_mem' c p hp := ⟨(natDegree_smul_le _ _).trans hp.1, fun j => by
    rw [coeff_smul]
    exact (natDegree_smul_le _ _).trans (hp.2 j)⟩

/-- all elements of the target group in the aggregate have bounded degree -/
structure AggProof.Bounded (m : Nat) {G1 G2 : Type} (p : AggProof G1 G2 (FormalTarget F)) : Prop where
  comAB : p.comAB.1 ∈ formalBounded F m ∧ p.comAB.2 ∈ formalBounded F m
  comC : p.comC.1 ∈ formalBounded F m ∧ p.comC.2 ∈ formalBounded F m
  ipAB : p.ipAB ∈ formalBounded F m
  commsAB : ∀ c ∈ p.gipa.commsAB, (c.1.1 ∈ formalBounded F m ∧ c.1.2 ∈ formalBounded F m) ∧
    c.2.1 ∈ formalBounded F m ∧ c.2.2 ∈ formalBounded F m
  commsC : ∀ c ∈ p.gipa.commsC, (c.1.1 ∈ formalBounded F m ∧ c.1.2 ∈ formalBounded F m) ∧
    c.2.1 ∈ formalBounded F m ∧ c.2.2 ∈ formalBounded F m
  zAB : ∀ c ∈ p.gipa.zAB, c.1 ∈ formalBounded F m ∧ c.2 ∈ formalBounded F m

theorem elements_bounded (d : Nat) (a : formalElements F F d) : (a : FormalTarget F) ∈ formalBounded F d :=
  ⟨natDegree_le_iff_coeff_eq_zero.mpr fun j hj => by
    ext i
    rw [a.2 i j (Or.inr (Or.inr hj)), coeff_zero],
   fun j => natDegree_le_iff_coeff_eq_zero.mpr fun i hi => a.2 i j (Or.inr (Or.inl hi))⟩

theorem product_bounded (d m : Nat) (h : 2 * d ≤ m) (a b : formalElements F F d) :
    (a : FormalTarget F) * b ∈ formalBounded F m := by
  obtain ⟨a1, a2⟩ := elements_bounded d a
  obtain ⟨b1, b2⟩ := elements_bounded d b
  refine ⟨natDegree_mul_le.trans (by omega), fun j => ?_⟩
  rw [coeff_mul]
  refine natDegree_sum_le_of_forall_le _ _ fun x _ => natDegree_mul_le.trans ?_
  have := a2 x.1
  have := b2 x.2
  omega

theorem combined_bounded (m : Nat) (T : FormalTarget F) (hT : T ∈ formalBounded F m)
    (LR : List (FormalTarget F × FormalTarget F))
    (h : ∀ c ∈ LR, c.1 ∈ formalBounded F m ∧ c.2 ∈ formalBounded F m) (xs : List F) :
    combinedValue T LR xs ∈ formalBounded F m := by
  induction LR generalizing T xs with
  | nil => simpa [combinedValue] using hT
  | cons lr LR ih =>
    cases xs with
    | nil => simpa [combinedValue] using hT
    | cons x xs =>
      rw [combinedValue_cons]
      have := h lr (by simp)
      exact ih _ (Submodule.add_mem _ (Submodule.add_mem _ hT (Submodule.smul_mem _ _ this.1))
        (Submodule.smul_mem _ _ this.2)) (fun c hc => h c (by simp [hc])) xs

/-- a non-zero polynomial vanishes at few pairs of secrets -/
theorem formal_zeros [Fintype F] (m : Nat) (p : FormalTarget F) (hp : p ∈ formalBounded F m) (h0 : p ≠ 0) :
    ∃ S : Finset (F × F), S.card ≤ 2 * m * Fintype.card F ∧
      ∀ alpha beta, secretValue alpha beta p = 0 → (alpha, beta) ∈ S := by
  classical
  -- the secrets `α` at which the leading coefficient vanishes
  set q := p.leadingCoeff with hq
  have hq0 : q ≠ 0 := leadingCoeff_ne_zero.mpr h0
  let line : F → Finset F := fun alpha => ((p.map (evalRingHom alpha)).roots).toFinset
  refine ⟨(q.roots.toFinset ×ˢ Finset.univ) ∪
    (Finset.univ : Finset F).biUnion fun alpha => if q.eval alpha = 0 then ∅ else
      (line alpha).image fun beta => (alpha, beta), ?_, fun alpha beta h => ?_⟩
  · refine (Finset.card_union_le _ _).trans ?_
    have h1 : (q.roots.toFinset ×ˢ (Finset.univ : Finset F)).card ≤ m * Fintype.card F := by
      rw [Finset.card_product, Finset.card_univ]
      exact Nat.mul_le_mul_right _ ((Multiset.toFinset_card_le _).trans ((card_roots' _).trans (hp.2 _)))
    have h2 : ((Finset.univ : Finset F).biUnion fun alpha => if q.eval alpha = 0 then ∅ else
        (line alpha).image fun beta => (alpha, beta)).card ≤ Fintype.card F * m := by
      refine Finset.card_biUnion_le_card_mul _ _ _ fun alpha _ => ?_
      split
      · simp
      · refine Finset.card_image_le.trans ((Multiset.toFinset_card_le _).trans ((card_roots' _).trans ?_))
        exact natDegree_map_le.trans hp.1
    calc _ ≤ m * Fintype.card F + Fintype.card F * m := Nat.add_le_add h1 h2
      _ = 2 * m * Fintype.card F := by ring
  · rw [Finset.mem_union]
    by_cases hz : q.eval alpha = 0
    · left
      rw [Finset.mem_product]
      exact ⟨by rw [Multiset.mem_toFinset, mem_roots hq0]; exact hz, Finset.mem_univ _⟩
    · right
      rw [Finset.mem_biUnion]
      refine ⟨alpha, Finset.mem_univ _, ?_⟩
      rw [if_neg hz, Finset.mem_image]
      refine ⟨beta, ?_, rfl⟩
      have hne : p.map (evalRingHom alpha) ≠ 0 := by
        intro he
        apply hz
        have := congrArg (fun r => r.coeff p.natDegree) he
        simpa [coeff_map] using this
      rw [Multiset.mem_toFinset, mem_roots hne, IsRoot, eval_map]
      have e : (p.eval (C beta)).eval alpha = p.eval₂ (evalRingHom alpha) beta := by
        have := hom_eval₂ p (RingHom.id _) (evalRingHom alpha) (C beta)
        rw [RingHom.comp_id, coe_evalRingHom, eval_C] at this
        exact this
      rw [← e]
      exact h

/-- finitely many equations between polynomials hold if they hold at a pair of secrets that is not one of
few -/
theorem formal_equations [Fintype F] (m : Nat) : ∀ L : List (FormalTarget F × FormalTarget F),
    (∀ ab ∈ L, ab.1 ∈ formalBounded F m ∧ ab.2 ∈ formalBounded F m) →
    ∃ S : Finset (F × F), S.card ≤ L.length * (2 * m * Fintype.card F) ∧ ∀ alpha beta, (alpha, beta) ∉ S →
      ∀ ab ∈ L, secretValue alpha beta ab.1 = secretValue alpha beta ab.2 → ab.1 = ab.2
  | [], _ => ⟨∅, by simp, by simp⟩
  | ab :: L, h => by
    classical
    obtain ⟨S, hS, hz⟩ := formal_equations m L fun x hx => h x (by simp [hx])
    by_cases h0 : ab.1 - ab.2 = 0
    · refine ⟨S, hS.trans (Nat.mul_le_mul_right _ (by simp)), fun alpha beta hn x hx he => ?_⟩
      rcases List.mem_cons.mp hx with rfl | hx
      · exact sub_eq_zero.mp h0
      · exact hz alpha beta hn x hx he
    · have hab := h ab (by simp)
      obtain ⟨S', hS', hz'⟩ := formal_zeros m _ (Submodule.sub_mem _ hab.1 hab.2) h0
      refine ⟨S ∪ S', (Finset.card_union_le _ _).trans ?_, fun alpha beta hn x hx he => ?_⟩
      · rw [List.length_cons, Nat.add_mul, Nat.one_mul]
        exact Nat.add_le_add hS hS'
      · rw [Finset.mem_union, not_or] at hn
        rcases List.mem_cons.mp hx with rfl | hx
        · exact absurd (hz' alpha beta (by rw [map_sub, he, sub_self])) hn.2
        · exact hz alpha beta hn.1 x hx he

theorem pair_secret (P : Pairing F G1 G2 GT) (d : Nat) (alpha beta : F) (a b : formalElements F F d) :
    P.e (secretElement P.one1 d alpha beta a) (secretElement P.one2 d alpha beta b) =
      secretPoint (P.e P.one1 P.one2) alpha beta ((formalPairing F F d).e a b) := by
  rw [formalPairing_e]
  simp only [secretElement, secretPoint, LinearMap.comp_apply, LinearMap.smulRight_apply, Submodule.subtype_apply,
    secretValue_mul, map_smul, LinearMap.smul_apply, smul_smul]
  rw [mul_comm]

/-- The formal equations are those of the protocol: if the equations of the verifier hold for the elements
that a prover computes from the reference string, for a pair of secrets `alpha`, `beta` outside of a set
of at most `22 m |F|` of the `|F|^2` pairs, they hold between the polynomials. The set depends only on the
polynomials that the prover uses and on the challenges. -/
theorem C112_formal_equations [Fintype F] (P : Pairing F G1 G2 GT) (hne : P.e P.one1 P.one2 ≠ 0) (n d m : Nat)
    (h1 : 1 ≤ d) (hm : 2 * d ≤ m) (vk : AggVK (formalElements F F d) (formalElements F F d))
    (inputs : List (List F)) (p : AggProof (formalElements F F d) (formalElements F F d) (FormalTarget F))
    (hp : p.Bounded m) (r : F) (xs : List F) (z : F) :
    ∃ S : Finset (F × F), S.card ≤ 22 * m * Fintype.card F ∧ ∀ alpha beta, (alpha, beta) ∉ S →
      AggEquations P (honestVerificationSrs P n alpha beta)
        (vk.mapped (secretElement P.one1 d alpha beta) (secretElement P.one2 d alpha beta)) inputs
        (p.mapped (secretElement P.one1 d alpha beta) (secretElement P.one2 d alpha beta)
          (secretPoint (P.e P.one1 P.one2) alpha beta)) r xs z →
      AggEquations (formalPairing F F d) (formalSrs F F n d) vk inputs p r xs z := by
  set Q := formalPairing F F d with hQ
  set s := formalSrs F F n d with hs
  have pb : ∀ a b, Q.e a b ∈ formalBounded F m := fun a b => product_bounded d m hm a b
  have eb : ∀ a : formalElements F F d, (a : FormalTarget F) ∈ formalBounded F m := fun a =>
    ⟨(elements_bounded d a).1.trans (by omega), fun j => ((elements_bounded d a).2 j).trans (by omega)⟩
  obtain ⟨S, hS, hz⟩ := formal_equations m
    [(Q.e s.g (p.gipa.finalVkey.1 - foldFactor (xs.map (·⁻¹)) z • s.h), Q.e (s.gAlpha - z • s.g) p.vkeyOpening.1),
     (Q.e s.g (p.gipa.finalVkey.2 - foldFactor (xs.map (·⁻¹)) z • s.h), Q.e (s.gBeta - z • s.g) p.vkeyOpening.2),
     (Q.e (p.gipa.finalWkey.1 - (foldFactor xs (z * r⁻¹) * z ^ s.n) • s.g) s.h,
       Q.e p.wkeyOpening.1 (s.hAlpha - z • s.h)),
     (Q.e (p.gipa.finalWkey.2 - (foldFactor xs (z * r⁻¹) * z ^ s.n) • s.g) s.h,
       Q.e p.wkeyOpening.2 (s.hBeta - z • s.h)),
     (Q.e p.gipa.finalA p.gipa.finalB, combinedValue p.ipAB p.gipa.zAB xs),
     (Q.e p.gipa.finalA p.gipa.finalVkey.1 + Q.e p.gipa.finalWkey.1 p.gipa.finalB,
       combinedValue p.comAB.1 (p.gipa.commsAB.map fun c => (c.1.1, c.2.1)) xs),
     (Q.e p.gipa.finalA p.gipa.finalVkey.2 + Q.e p.gipa.finalWkey.2 p.gipa.finalB,
       combinedValue p.comAB.2 (p.gipa.commsAB.map fun c => (c.1.2, c.2.2)) xs),
     (Q.e p.gipa.finalC p.gipa.finalVkey.1,
       combinedValue p.comC.1 (p.gipa.commsC.map fun c => (c.1.1, c.2.1)) xs),
     (Q.e p.gipa.finalC p.gipa.finalVkey.2,
       combinedValue p.comC.2 (p.gipa.commsC.map fun c => (c.1.2, c.2.2)) xs),
     (((foldFactor (xs.map (·⁻¹)) r • p.gipa.finalC : formalElements F F d) : FormalTarget F),
       ((combinedValue p.aggC p.gipa.zC xs : formalElements F F d) : FormalTarget F)),
     (p.ipAB, Q.e ((∑ i : Fin inputs.length, r ^ (i : Nat)) • vk.alphaG1) vk.betaG2 +
       Q.e (∑ i : Fin inputs.length, r ^ (i : Nat) • (vk.gammaABC.first +
         (List.zipWith (fun g a => a • g) vk.gammaABC.rest inputs[i]).sum)) vk.gammaG2 +
       Q.e p.aggC vk.deltaG2)] (by
    simp only [List.mem_cons, List.not_mem_nil, or_false, forall_eq_or_imp, forall_eq]
    refine ⟨⟨pb _ _, pb _ _⟩, ⟨pb _ _, pb _ _⟩, ⟨pb _ _, pb _ _⟩, ⟨pb _ _, pb _ _⟩,
      ⟨pb _ _, combined_bounded m _ hp.ipAB _ hp.zAB _⟩,
      ⟨Submodule.add_mem _ (pb _ _) (pb _ _), combined_bounded m _ hp.comAB.1 _ ?_ _⟩,
      ⟨Submodule.add_mem _ (pb _ _) (pb _ _), combined_bounded m _ hp.comAB.2 _ ?_ _⟩,
      ⟨pb _ _, combined_bounded m _ hp.comC.1 _ ?_ _⟩, ⟨pb _ _, combined_bounded m _ hp.comC.2 _ ?_ _⟩,
      ⟨eb _, eb _⟩, ⟨hp.ipAB, Submodule.add_mem _ (Submodule.add_mem _ (pb _ _) (pb _ _)) (pb _ _)⟩⟩ <;>
    · intro c hc
      obtain ⟨c', hc', rfl⟩ := List.mem_map.mp hc
      first
        | exact ⟨(hp.commsAB c' hc').1.1, (hp.commsAB c' hc').2.1⟩
        | exact ⟨(hp.commsAB c' hc').1.2, (hp.commsAB c' hc').2.2⟩
        | exact ⟨(hp.commsC c' hc').1.1, (hp.commsC c' hc').2.1⟩
        | exact ⟨(hp.commsC c' hc').1.2, (hp.commsC c' hc').2.2⟩)
  refine ⟨S, hS.trans (le_of_eq (by simp only [List.length_cons, List.length_nil]; ring)), fun alpha beta hn heq => ?_⟩
  have hz' := hz alpha beta hn
  simp only [List.mem_cons, List.not_mem_nil, or_false, forall_eq_or_imp, forall_eq] at hz'
  obtain ⟨z1, z2, z3, z4, z5, z6, z7, z8, z9, z10, z11⟩ := hz'
  set f1 := secretElement P.one1 d alpha beta with hf1
  set f2 := secretElement P.one2 d alpha beta with hf2
  set fT := secretPoint (P.e P.one1 P.one2) alpha beta with hfT
  have pair : ∀ a b, P.e (f1 a) (f2 b) = fT (Q.e a b) := fun a b => pair_secret P d alpha beta a b
  have inj : ∀ a b, fT a = fT b → secretValue alpha beta a = secretValue alpha beta b := by
    intro a b hab
    exact smul_left_injective F hne hab
  have inj1 : ∀ a b : formalElements F F d, f1 a = f1 b →
      secretValue alpha beta (a : FormalTarget F) = secretValue alpha beta (b : FormalTarget F) := by
    intro a b hab
    have h0 : P.one1 ≠ 0 := fun h => hne (by rw [h, map_zero, LinearMap.zero_apply])
    exact smul_left_injective F h0 hab
  have v0 : secretValue alpha beta (formalAlpha F ^ 0) = 1 := by simp [secretValue]
  have va : secretValue alpha beta (formalAlpha F ^ 1) = alpha := by simp [secretValue, formalAlpha]
  have vb : secretValue alpha beta (formalBeta F ^ 1) = beta := by simp [secretValue, formalBeta]
  have hsrs : honestVerificationSrs P n alpha beta =
      ⟨n, f1 s.g, f2 s.h, f1 s.gAlpha, f1 s.gBeta, f2 s.hAlpha, f2 s.hBeta⟩ := by
    simp only [honestVerificationSrs, hs, formalSrs, hf1, hf2, secretElement, secretPoint, LinearMap.comp_apply,
      LinearMap.smulRight_apply, Submodule.subtype_apply, formalAlphaPower_val _ _ (Nat.zero_le d),
      formalAlphaPower_val _ _ h1, formalBetaPower_val _ _ h1, v0, va, vb, one_smul]
  rw [hsrs] at heq
  have comb : ∀ (T : FormalTarget F) (LR : List (FormalTarget F × FormalTarget F)),
      combinedValue (fT T) (LR.map (Prod.map fT fT)) xs = fT (combinedValue T LR xs) := fun T LR =>
    (combinedValue_map fT T LR xs).symm
  have comb1 : ∀ (T : formalElements F F d) (LR : List (formalElements F F d × formalElements F F d)),
      combinedValue (f1 T) (LR.map (Prod.map f1 f1)) xs = f1 (combinedValue T LR xs) := fun T LR =>
    (combinedValue_map f1 T LR xs).symm
  have ic : ∀ x : List F, f1 vk.gammaABC.first +
      (List.zipWith (fun g a => a • g) (vk.gammaABC.rest.map f1) x).sum =
      f1 (vk.gammaABC.first + (List.zipWith (fun g a => a • g) vk.gammaABC.rest x).sum) := by
    intro x
    rw [map_add, map_list_sum, List.map_zipWith, List.zipWith_map_left]
    simp only [map_smul]
  refine ⟨z1 (inj _ _ ?_), z2 (inj _ _ ?_), z3 (inj _ _ ?_), z4 (inj _ _ ?_), z5 (inj _ _ ?_), z6 (inj _ _ ?_),
    z7 (inj _ _ ?_), z8 (inj _ _ ?_), z9 (inj _ _ ?_), Subtype.ext (z10 (inj1 _ _ ?_)), z11 (inj _ _ ?_)⟩
  · have := heq.v1
    simp only [AggProof.mapped, Prod.map_fst, ← map_smul, ← map_sub, pair] at this
    exact this
  · have := heq.v2
    simp only [AggProof.mapped, Prod.map_snd, ← map_smul, ← map_sub, pair] at this
    exact this
  · have := heq.w1
    simp only [AggProof.mapped, Prod.map_fst, ← map_smul, ← map_sub, pair] at this
    exact this
  · have := heq.w2
    simp only [AggProof.mapped, Prod.map_snd, ← map_smul, ← map_sub, pair] at this
    exact this
  · have := heq.zab
    simp only [AggProof.mapped, pair, comb] at this
    exact this
  · have := heq.tab
    rw [← comb, map_add, ← pair, ← pair, List.map_map]
    simp only [AggProof.mapped, List.map_map] at this
    exact this
  · have := heq.uab
    rw [← comb, map_add, ← pair, ← pair, List.map_map]
    simp only [AggProof.mapped, List.map_map] at this
    exact this
  · have := heq.tc
    rw [← comb, ← pair, List.map_map]
    simp only [AggProof.mapped, List.map_map] at this
    exact this
  · have := heq.uc
    rw [← comb, ← pair, List.map_map]
    simp only [AggProof.mapped, List.map_map] at this
    exact this
  · have := heq.zc
    rw [← comb1, map_smul]
    exact this
  · have := heq.groth
    simp only [AggProof.mapped, AggVK.mapped, ic, ← map_smul, ← map_sum, pair, ← map_add] at this
    exact this

/-- a field with few elements, an aggregate with commitments that depend on both secrets: the equations of
the polynomials do not hold, so at most `22 * 2 * 97` of the `97^2` pairs of secrets make it accepted -/
example : ∃ S : Finset (ZMod 97 × ZMod 97), S.card ≤ 22 * 2 * Fintype.card (ZMod 97) ∧
    ∀ alpha beta, (alpha, beta) ∉ S →
      ¬ AggEquations exPairing97 (honestVerificationSrs exPairing97 1 alpha beta)
        ((⟨0, 0, 0, 0, ⟨0, []⟩⟩ : AggVK (formalElements (ZMod 97) (ZMod 97) 1)
          (formalElements (ZMod 97) (ZMod 97) 1)).mapped (secretElement 1 1 alpha beta) (secretElement 1 1 alpha beta)) []
        ((⟨(formalAlpha _, formalBeta _), (0, 0), 0, 0, ⟨1, [], [], [], [], 0, 0, 0, (0, 0), (0, 0)⟩, (0, 0), (0, 0)⟩ :
          AggProof (formalElements (ZMod 97) (ZMod 97) 1) (formalElements (ZMod 97) (ZMod 97) 1)
            (FormalTarget (ZMod 97))).mapped (secretElement 1 1 alpha beta) (secretElement 1 1 alpha beta)
          (secretPoint 1 alpha beta)) 1 [] 2 := by
  have ba : formalAlpha (ZMod 97) ∈ formalBounded (ZMod 97) 2 := by
    have := elements_bounded 1 (formalAlphaPower (ZMod 97) (ZMod 97) 1 1)
    rw [formalAlphaPower_val _ _ le_rfl, pow_one] at this
    exact ⟨this.1.trans (by omega), fun j => (this.2 j).trans (by omega)⟩
  have bb : formalBeta (ZMod 97) ∈ formalBounded (ZMod 97) 2 := by
    have := elements_bounded 1 (formalBetaPower (ZMod 97) (ZMod 97) 1 1)
    rw [formalBetaPower_val _ _ le_rfl, pow_one] at this
    exact ⟨this.1.trans (by omega), fun j => (this.2 j).trans (by omega)⟩
  have hone : exPairing97.e exPairing97.one1 exPairing97.one2 = 1 := by simp [exPairing97]
  obtain ⟨S, hS, h⟩ := C112_formal_equations exPairing97 (by rw [hone]; exact one_ne_zero) 1 1 2 le_rfl le_rfl
    ⟨0, 0, 0, 0, ⟨0, []⟩⟩ [] ⟨(formalAlpha _, formalBeta _), (0, 0), 0, 0,
      ⟨1, [], [], [], [], 0, 0, 0, (0, 0), (0, 0)⟩, (0, 0), (0, 0)⟩
    ⟨⟨ba, bb⟩, ⟨Submodule.zero_mem _, Submodule.zero_mem _⟩, Submodule.zero_mem _, by simp, by simp, by simp⟩ 1 [] 2
  refine ⟨S, hS, fun alpha beta hn heq => ?_⟩
  rw [hone] at h
  have := (h alpha beta hn heq).tab
  simp only [combinedValue, map_zero, add_zero, List.map_nil, List.zipWith_nil_left, List.sum_nil] at this
  have h2 := congrArg (fun p : FormalTarget (ZMod 97) => (p.coeff 0).coeff 1) this
  simp [formalAlpha, Polynomial.coeff_C] at h2

end Crypto3Zk
