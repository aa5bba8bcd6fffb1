import Verif.Spec.SeenProofs
import Verif.Lemmas.SeenGroth16
import Verif.Lemmas.EncryptedLinear
import Verif.Props.ZeroKnowledge
import Verif.Props.Groth16Linear

/-!
# C115: seen Groth16 proofs help to make changed copies of them only

By C113 anyone can change an accepted Groth16 proof. Here it is shown that a prover that computes with group
elements cannot make anything else of the proofs it has seen, unless it has a witness.
-/

set_option linter.unusedSectionVars false

namespace Crypto3Zk

open Finset

variable {F : Type} [Field F] [DecidableEq F] {D : EvalDomain F}
variable {G1 G2 GT : Type} [AddCommGroup G1] [Module F G1] [AddCommGroup G2] [Module F G2]
  [AddCommGroup GT] [Module F GT] [DecidableEq GT]

/-- the input elements of the verification key, accumulated -/
theorem accumulate_inputK (q : QapEval F) (x : Fin 4 → F) (g1 : G1) (ni : Nat) (p : List F) (hp : p.length = ni) :
    (kVal q (x 0) (x 1) 0 * (x 2)⁻¹) • g1 + (List.zipWith (fun g y => y • g)
      (batchExp g1 ((List.range' 1 ni).map fun i => kVal q (x 0) (x 1) i * (x 2)⁻¹)) p).sum =
      (q.inputK x p * (x 2)⁻¹) • g1 := by
  rw [batchExp, zipWith_smul_batch,
    innerProduct_kVal q _ _ _ _ ni (fun i => 1 + i) _ (by simp) (by simp) hp, ← add_smul, QapEval.inputK, hp, kVal]
  congr 1
  ring

/-- the elements of the proof of a prover that has seen proofs, as multiples of the generators -/
theorem groth16_seen_at (P : Pairing F G1 G2 GT) (cs cs' : R1CS F) (chunks : Nat)
    (hs : cs.swapABIfBeneficial = some cs') (g1 : G1) (g2 : G2) (hne : P.e g1 g2 ≠ 0)
    {N : Nat} (xs : Fin N → List F) (p : List F) (s : Groth16Seen F N) (t : F) (x : Fin 4 → F)
    (h2 : x 2 ≠ 0) (h3 : x 3 ≠ 0) (u : (Fin N → F) × (Fin N → F))
    (q : QapEval F) (hq : cs'.qapEval D t = some q) (nv ni : Nat) (n1 : q.numVariables = nv) (n3 : q.numInputs = ni)
    (hle : ni ≤ nv) (lA : q.At.length = nv + 1) (lB : q.Bt.length = nv + 1) (lC : q.Ct.length = nv + 1)
    (hp : p.length = ni) (hxs : ∀ k, (xs k).length = ni)
    (hacc : Groth16NewProof P D cs ⟨t, x 0, x 1, x 2, x 3, g1, g2⟩ chunks xs u s p) :
    let σ := fun k => x 0 * x 1 + q.inputK x (xs k)
    let A0 := (s.A.at q nv ni).value (x 0) (x 1) (x 2) (x 3)
    let B0 := (s.B.at q).value (x 1) (x 2) (x 3)
    let C0 := (s.C.at q nv ni).value (x 0) (x 1) (x 2) (x 3)
    let a := A0 + ∑ k, (s.aA k * u.1 k + s.aC k * (x 3)⁻¹ * (u.1 k * u.2 k - σ k))
    let b := B0 + ∑ k, s.bB k * u.2 k
    a * b = x 0 * x 1 + q.inputK x p + C0 * x 3 +
        ∑ k, (x 3 * s.cA k * u.1 k + s.cC k * (u.1 k * u.2 k - σ k)) ∧
      s.C.l.length = nv - ni ∧ s.C.h.length = (q.Ht.take (q.Ht.length - 2)).length ∧
      ∀ (k : Fin N) (y z : F), y ≠ 0 → ¬ (p = xs k ∧ a = y * u.1 k ∧ b = y⁻¹ * (u.2 k + z * x 3) ∧
        C0 + ∑ k, (s.cA k * u.1 k + s.cC k * ((x 3)⁻¹ * (u.1 k * u.2 k - σ k))) =
          (x 3)⁻¹ * (u.1 k * u.2 k - σ k) + z * u.1 k) := by
  obtain ⟨pk, vk, seen, π, hg, hsim, hpr, hv, hno⟩ := hacc
  have hkeys := hg.symm.trans
    (groth16Generate_eq P D cs cs' ⟨t, x 0, x 1, x 2, x 3, g1, g2⟩ chunks hs q hq nv ni n1 n3 hle lA lB lC)
  simp only [Groth16Seen.prove, Option.bind_eq_bind, Option.bind_eq_some_iff, Option.pure_def,
    Option.some.injEq] at hpr
  obtain ⟨gA, hA, gB, hB, gC, hC, rfl⟩ := hpr
  obtain ⟨rA, -, -⟩ := Groth16Coeffs1.combine_eq P cs' _ q nv ni pk vk hle hkeys s.A gA hA
  obtain ⟨rC, l1, l2⟩ := Groth16Coeffs1.combine_eq P cs' _ q nv ni pk vk hle hkeys s.C gC hC
  simp only [Option.some.injEq, Prod.mk.injEq] at hkeys
  obtain ⟨rfl, rfl⟩ := hkeys
  have rB := Groth16Coeffs2.combine_eq ⟨t, x 0, x 1, x 2, x 3, g1, g2⟩ q _ _ rfl rfl rfl rfl s.B gB hB
  simp only at rA rB rC
  subst rA rB rC
  have hseen : seen = fun k => (⟨u.1 k • g1, u.2 k • g2,
      ((x 3)⁻¹ * (u.1 k * u.2 k - (x 0 * x 1 + q.inputK x (xs k)))) • g1⟩ : Groth16Proof G1 G2) := by
    funext k
    have := hsim k
    have h0 : AccVec.accumulate (F := F) ⟨(kVal q (x 0) (x 1) 0 * (x 2)⁻¹) • g1,
        batchExp g1 ((List.range' 1 ni).map fun i => kVal q (x 0) (x 1) i * (x 2)⁻¹)⟩ (xs k) =
        some ((q.inputK x (xs k) * (x 2)⁻¹) • g1) := by
      rw [AccVec.accumulate, if_pos (by simp [AccVec.domainSize, batchExp, hxs]),
        accumulate_inputK q x g1 ni (xs k) (hxs k)]
    simp only [groth16Simulate, h0, Option.bind_eq_bind, Option.bind_some, Option.pure_def,
      Option.some.injEq, smul_smul, ← sub_smul] at this
    rw [← this]
    refine (Groth16Proof.mk.injEq ..).mpr ⟨rfl, rfl, ?_⟩
    refine congrArg (fun y => y • g1) ?_
    field_simp
    ring
  subst hseen
  have hacc := ((C50_verifier_iff P _ p _ (by simp [batchExp, hp])).1.1 hv).2.2.2
  simp only [accumulate_inputK q x g1 ni p hp, smul_smul, ← add_smul, ← Finset.sum_smul, pair_smul] at hacc hno
  have hz := smul_left_injective F hne hacc
  refine ⟨?_, l1, l2, fun k y z hy hk => hno k y z hy ⟨hk.1, ?_⟩⟩
  · have e1 : ∑ k, (s.aA k * u.1 k + s.aC k * (x 3)⁻¹ * (u.1 k * u.2 k - (x 0 * x 1 + q.inputK x (xs k)))) =
        ∑ k, (s.aA k * u.1 k + s.aC k * ((x 3)⁻¹ * (u.1 k * u.2 k - (x 0 * x 1 + q.inputK x (xs k))))) :=
      Finset.sum_congr rfl fun k _ => by ring
    have e2 : ∑ k, (x 3 * s.cA k * u.1 k + s.cC k * (u.1 k * u.2 k - (x 0 * x 1 + q.inputK x (xs k)))) =
        (∑ k, (s.cA k * u.1 k + s.cC k * ((x 3)⁻¹ * (u.1 k * u.2 k - (x 0 * x 1 + q.inputK x (xs k)))))) * x 3 := by
      rw [Finset.sum_mul]
      refine Finset.sum_congr rfl fun k _ => ?_
      field_simp
    rw [e1, e2, hz, mul_assoc (q.inputK x p), inv_mul_cancel₀ h2]
    ring
  · have e1 : ∑ k, (s.aA k * u.1 k + s.aC k * (x 3)⁻¹ * (u.1 k * u.2 k - (x 0 * x 1 + q.inputK x (xs k)))) =
        ∑ k, (s.aA k * u.1 k + s.aC k * ((x 3)⁻¹ * (u.1 k * u.2 k - (x 0 * x 1 + q.inputK x (xs k))))) :=
      Finset.sum_congr rfl fun k _ => by ring
    obtain ⟨-, f1, f2, f3⟩ := hk
    rw [e1] at f1
    rw [f1, f2, f3]
    simp only [groth16Change, smul_smul, ← add_smul]

/-- inputs that differ by elements of the proving key are the same -/
theorem seenGroth16_inputs (hD : D.Lawful) (cs : R1CS F) (hm : cs.numConstraints + cs.numInputs + 1 ≤ D.m)
    (x : Nat → F) (S : Finset F) (hS : D.m < S.card)
    (heq : ∀ t ∈ S, dot (cs.qapARow D.m x) (fun i => (D.lagrange t).getD i 0) = 0) :
    ∀ j < cs.numInputs, x (1 + j) = 0 := by
  have hl := R1CS.length_qapARow cs x D.m hm
  have hz : ∀ t, dot (List.replicate D.m (0 : F)) (fun i => (D.lagrange t).getD i 0) = 0 := by
    intro t
    rw [dot_eq_sum]
    refine Finset.sum_eq_zero fun i hi => ?_
    rw [List.getD_replicate _ (by simpa using hi), zero_mul]
  have hrow := rows_eq_of_many hD _ (List.replicate D.m 0) 0 0 hl (by simp) S hS (fun t ht => by
    rw [heq t ht, hz])
  intro j hj
  have := hrow (cs.numConstraints + (1 + j)) (by omega)
  rw [R1CS.qapARow_input _ _ _ _ (by omega), List.getD_replicate _ (by omega)] at this
  exact this

/-- The heart of C115. -/
theorem groth16_seen [Fintype F] (P : Pairing F G1 G2 GT) (hD : D.Lawful) (cs : R1CS F)
    (hr : cs.WellRanged) (hm : cs.numConstraints + cs.numInputs + 1 ≤ D.m) (chunks : Nat)
    (g1 : G1) (g2 : G2) (hne : P.e g1 g2 ≠ 0) {n : Nat} (xs : Fin (n + 1) → List F)
    (hxs : ∀ k, (xs k).length = cs.primaryInputSize) (p : List F) (hp : p.length = cs.primaryInputSize)
    (s : Groth16Seen F (n + 1)) (accepting : Finset (F × (Fin 4 → F) × (Fin (n + 1) → F) × (Fin (n + 1) → F)))
    (hacc : ∀ z ∈ accepting, z.2.1 2 ≠ 0 ∧ z.2.1 3 ≠ 0 ∧
      Groth16NewProof P D cs ⟨z.1, z.2.1 0, z.2.1 1, z.2.1 2, z.2.1 3, g1, g2⟩ chunks xs z.2.2 s p)
    (hcard : (2 * D.m + 7) * Fintype.card F ^ (2 * (n + 1) + 4) < accepting.card) :
    cs.isSatisfied p s.C.l = some true := by
  classical
  obtain ⟨cs', hcs'⟩ := C16_swap_defined cs hr
  obtain ⟨hp', hw', hr'⟩ := R1CS.swap_shape cs cs' hcs'
  obtain ⟨hsat', hni, hnv, hnc⟩ := C16_swap_preserves cs cs' hcs'
  have hm' : cs'.numConstraints + cs'.numInputs + 1 ≤ D.m := by rw [hnc, hni]; exact hm
  set K := Fintype.card F with hK
  obtain ⟨good, hgood, hslice⟩ := many_slices accepting (2 * D.m) (7 * K ^ (2 * n + 5)) (by
    rw [Fintype.card_prod, Fintype.card_prod, Fintype.card_fun, Fintype.card_fun, Fintype.card_fin, Fintype.card_fin,
      ← hK]
    calc _ = (2 * D.m + 7) * K ^ (2 * (n + 1) + 4) := by ring
      _ < _ := hcard)
  -- for every good point there are many α, β, γ, δ, each with many random values of the simulator
  have hx : ∀ t ∈ good, ∃ X : Finset (Fin 4 → F), 4 * K ^ 3 < X.card ∧ ∀ x ∈ X, x 2 ≠ 0 ∧ x 3 ≠ 0 ∧
      ∃ U : Finset ((Fin (n + 1) → F) × (Fin (n + 1) → F)), 3 * K ^ (2 * n + 1) < U.card ∧
      ∀ u ∈ U, Groth16NewProof P D cs ⟨t, x 0, x 1, x 2, x 3, g1, g2⟩ chunks xs u s p := by
    intro t ht
    obtain ⟨X, hX, hU⟩ := many_slices (Finset.univ.filter fun b => (t, b) ∈ accepting) (4 * K ^ 3)
      (3 * K ^ (2 * n + 1)) (by
      rw [Fintype.card_prod, Fintype.card_fun, Fintype.card_fun, Fintype.card_fin, Fintype.card_fin, ← hK]
      have h7 := hslice t ht
      have e7 : 4 * K ^ 3 * (K ^ (n + 1) * K ^ (n + 1)) + 3 * K ^ (2 * n + 1) * K ^ 4 = 7 * K ^ (2 * n + 5) := by ring
      rw [e7]
      convert h7)
    refine ⟨X, hX, fun x hx => ?_⟩
    have hin : ∀ u ∈ Finset.univ.filter (fun b => (x, b) ∈ Finset.univ.filter fun b => (t, b) ∈ accepting),
        (t, x, u) ∈ accepting := fun u hu => (Finset.mem_filter.1 (Finset.mem_filter.1 hu).2).2
    obtain ⟨u0, hu0⟩ : (Finset.univ.filter (fun b => (x, b) ∈ Finset.univ.filter fun b =>
      (t, b) ∈ accepting)).Nonempty := Finset.card_pos.1 (Nat.zero_lt_of_lt (hU x hx))
    have h0 := hacc _ (hin u0 hu0)
    exact ⟨h0.1, h0.2.1, _, hU x hx, fun u hu => (hacc _ (hin u hu)).2.2⟩
  set nv := cs'.numVariables with hnv0
  set ni := cs'.numInputs with hni0
  have hle : ni ≤ nv := by simp [hni0, hnv0, R1CS.numInputs, R1CS.numVariables]
  have hpl : p.length = cs'.primaryInputSize := by rw [hp, hp']
  have hpi : p.length = ni := by rw [hpl]; rfl
  have hxi : ∀ k, (xs k).length = ni := fun k => by rw [hxs k, ← hp']; rfl
  choose Qi Q _ hq _ n1 n2 n3 n4 lA lB lC eH eZ dA dB dC using fun t => R1CS.qapEval_spec hD cs' (hr' hr) hm' t
  obtain ⟨t0, ht0⟩ : good.Nonempty := Finset.card_pos.1 (by omega)
  have hc : ∃ c : F, c ≠ 0 ∧ c ≠ 1 := by
    have h3 : 2 < K := lt_of_lt_of_le (by omega : 2 < good.card) (Finset.card_le_univ _)
    obtain ⟨c, hc⟩ : ∃ c, c ∉ ({0, 1} : Finset F) := by
      by_contra hcon
      push Not at hcon
      have h4 := Finset.card_le_card (fun c _ => hcon c : (Finset.univ : Finset F) ⊆ {0, 1})
      have h5 : ({0, 1} : Finset F).card ≤ 2 := Finset.card_le_two
      rw [Finset.card_univ, ← hK] at h4
      omega
    exact ⟨c, by simpa using hc⟩
  -- what follows for each point
  have hpt : ∀ t (x : Fin 4 → F), x 2 ≠ 0 → x 3 ≠ 0 →
      ∀ U : Finset ((Fin (n + 1) → F) × (Fin (n + 1) → F)), 3 * K ^ (2 * n + 1) < U.card →
      (∀ u ∈ U, Groth16NewProof P D cs ⟨t, x 0, x 1, x 2, x 3, g1, g2⟩ chunks xs u s p) → _ :=
    fun t x h2 h3 U hUc hUa => seenGroth16_fixed hc n ((s.A.at (Q t) nv ni).value (x 0) (x 1) (x 2) (x 3))
      ((s.B.at (Q t)).value (x 1) (x 2) (x 3))
      (x 0 * x 1 + (Q t).inputK x p + (s.C.at (Q t) nv ni).value (x 0) (x 1) (x 2) (x 3) * x 3)
      s.aA (fun k => s.aC k * (x 3)⁻¹) s.bB (fun k => x 3 * s.cA k) s.cC
      (fun k => x 0 * x 1 + (Q t).inputK x (xs k)) U hUc
      fun u hu => (groth16_seen_at P cs cs' chunks hcs' g1 g2 hne xs p s t x h2 h3 u (Q t) (hq t) nv ni
        (n1 t) (n3 t) hle (lA t) (lB t) (lC t) hpi hxi (hUa u hu)).1
  obtain ⟨X0, hX0, hU0⟩ := hx t0 ht0
  obtain ⟨x0, hx0⟩ : X0.Nonempty := Finset.card_pos.1 (by omega)
  obtain ⟨x02, x03, U0, hU0c, hU0a⟩ := hU0 x0 hx0
  obtain ⟨u0, hu0⟩ : U0.Nonempty := Finset.card_pos.1 (by omega)
  obtain ⟨-, l1, -, hno⟩ := groth16_seen_at P cs cs' chunks hcs' g1 g2 hne xs p s t0 x0 x02 x03 u0 (Q t0) (hq t0)
    nv ni (n1 t0) (n3 t0) hle (lA t0) (lB t0) (lC t0) hpi hxi (hU0a u0 hu0)
  by_cases hB : ∀ k, s.bB k = 0
  · -- no second element is used: the prover is one that has seen nothing
    have := C18_qap_sound hD cs' (hr' hr) hm'
      ⟨cs'.numVariables, D.m, cs'.numInputs, 0, 0, 0, p ++ s.C.l, s.C.h ++ [0, 0]⟩ good hgood fun t ht => by
        obtain ⟨X, hX, hU⟩ := hx t ht
        obtain ⟨x1, hx1⟩ : X.Nonempty := Finset.card_pos.1 (by omega)
        obtain ⟨x12, x13, U1, hU1c, hU1a⟩ := hU x1 hx1
        obtain ⟨u1, hu1⟩ : U1.Nonempty := Finset.card_pos.1 (by omega)
        obtain ⟨-, -, l2, -⟩ := groth16_seen_at P cs cs' chunks hcs' g1 g2 hne xs p s t x1 x12 x13 u1 (Q t) (hq t)
          nv ni (n1 t) (n3 t) hle (lA t) (lB t) (lC t) hpi hxi (hU1a u1 hu1)
        refine ⟨Q t, hq t, groth16_equation cs' (Q t) (by omega) (n1 t) (n2 t) (n3 t) (n4 t) (lA t) (lB t) (lC t)
          (eH t) (eZ t) hle p hpi s.A s.C s.B l1 l2 X hX fun x hxX => ?_⟩
        obtain ⟨h2, h3, U, hUc, hUa⟩ := hU x hxX
        refine ⟨h2, h3, ?_⟩
        obtain ⟨-, r2, -, -, -, r6⟩ := hpt t x h2 h3 U hUc hUa
        have hs : ∑ k, s.cC k * (x 0 * x 1 + (Q t).inputK x (xs k)) =
            (∑ k, s.aC k * (x 3)⁻¹ * (x 0 * x 1 + (Q t).inputK x (xs k))) *
              (s.B.at (Q t)).value (x 1) (x 2) (x 3) := by
          rw [Finset.sum_mul]
          refine Finset.sum_congr rfl fun k _ => ?_
          rw [← r2 k, hB k]
          ring
        rw [hs] at r6
        linear_combination r6
    rw [hsat', ← hpl] at this
    simpa using this
  -- the second element of the seen proof `l` is used
  exfalso
  push Not at hB
  obtain ⟨l, hl⟩ := hB
  obtain ⟨f1, f2, f3, f4, f5, f6⟩ := hpt t0 x0 x02 x03 U0 hU0c hU0a
  have hu : ∀ k, k ≠ l → s.aA k = 0 := fun k hk => (mul_eq_zero.1 (f3 k l hk)).resolve_right hl
  have hv : ∀ k, s.aC k = 0 := by
    intro k
    have := (mul_eq_zero.1 (f1 k l)).resolve_right hl
    exact (mul_eq_zero.1 this).resolve_right (inv_ne_zero x03)
  have hqk : ∀ k, s.cC k = s.aA k * s.bB k := by
    intro k
    rw [← f2 k, hv k]
    ring
  -- at every good point
  have hused : ∀ t ∈ good, s.cC l = 1 ∧
      (((Q t).At.getD 0 0 + ∑ i ∈ range ni, p.getD i 0 * (Q t).At.getD (1 + i) 0) - s.cC l *
        ((Q t).At.getD 0 0 + ∑ i ∈ range ni, (xs l).getD i 0 * (Q t).At.getD (1 + i) 0)) +
        (s.C.at (Q t) nv ni).u2 = 0 := by
    intro t ht
    obtain ⟨X, hX, hU⟩ := hx t ht
    refine seenGroth16_used (s.C.at (Q t) nv ni) (s.cC l) _
      (((Q t).Bt.getD 0 0 + ∑ i ∈ range ni, p.getD i 0 * (Q t).Bt.getD (1 + i) 0) - s.cC l *
        ((Q t).Bt.getD 0 0 + ∑ i ∈ range ni, (xs l).getD i 0 * (Q t).Bt.getD (1 + i) 0))
      (((Q t).Ct.getD 0 0 + ∑ i ∈ range ni, p.getD i 0 * (Q t).Ct.getD (1 + i) 0) - s.cC l *
        ((Q t).Ct.getD 0 0 + ∑ i ∈ range ni, (xs l).getD i 0 * (Q t).Ct.getD (1 + i) 0)) X (by rw [← hK]; omega) ?_
    intro x hxX
    obtain ⟨h2, h3, U, hUc, hUa⟩ := hU x hxX
    refine ⟨h2, h3, ?_⟩
    obtain ⟨-, -, -, -, r5, r6⟩ := hpt t x h2 h3 U hUc hUa
    have ha := (mul_eq_zero.1 (r5 l)).resolve_right hl
    rw [ha, zero_mul, Finset.sum_eq_single l (fun k _ hk => by rw [hqk k, hu k hk]; ring) (by simp)] at r6
    simp only [QapEval.inputK, hpi, hxi] at r6
    linear_combination -r6
  have hq1 := (hused t0 ht0).1
  -- the input is that of the seen proof
  have hpx : p = xs l := by
    have hz := seenGroth16_inputs hD cs' hm' (fun i => envOf (p ++ s.C.l) i -
      envOf (xs l ++ List.replicate (nv - ni) 0) i) good (by omega) (by
      intro t ht
      have u4 := (hused t ht).2
      rw [hq1] at u4
      have hsub : dot (Q t).At (fun i => envOf (p ++ s.C.l) i - envOf (xs l ++ List.replicate (nv - ni) 0) i) =
          dot (Q t).At (envOf (p ++ s.C.l)) - dot (Q t).At (envOf (xs l ++ List.replicate (nv - ni) 0)) := by
        rw [dot_eq_sum, dot_eq_sum, dot_eq_sum, ← Finset.sum_sub_distrib]
        exact Finset.sum_congr rfl fun i _ => by ring
      have hzero : ∑ i ∈ range (nv - ni), (List.replicate (nv - ni) (0 : F)).getD i 0 *
          (Q t).At.getD ((xs l).length + 1 + i) 0 = 0 :=
        Finset.sum_eq_zero fun i hi => by rw [List.getD_replicate _ (by simpa using hi), zero_mul]
      rw [← dA t, hsub, dot_split _ _ _ (by rw [lA t, hpi, l1]; omega),
        dot_split _ _ _ (by rw [lA t, hxi, List.length_replicate]; omega), List.length_replicate, hzero]
      simp only [Groth16Coeffs1.at] at u4
      rw [l1, hpi, hxi]
      linear_combination u4)
    apply List.ext_getElem
    · rw [hpi, hxi]
    · intro i h1 h3
      have := hz i (by rw [hpi] at h1; exact h1)
      rw [show 1 + i = i + 1 by ring] at this
      simp only [envOf] at this
      rw [List.getD_append _ _ _ _ h1, List.getD_append _ _ _ _ h3, List.getD_eq_getElem _ _ h1,
        List.getD_eq_getElem _ _ h3] at this
      exact sub_eq_zero.1 this
  -- and the proof is a changed copy
  have hinv : s.aA l * s.bB l = 1 := by rw [← hqk l, hq1]
  have hy : s.aA l ≠ 0 := left_ne_zero_of_mul_eq_one hinv
  have hb : s.bB l = (s.aA l)⁻¹ := eq_inv_of_mul_eq_one_right hinv
  have ha0 := (mul_eq_zero.1 (f5 l)).resolve_right hl
  simp only [hv, zero_mul, Finset.sum_const_zero, sub_zero] at ha0 f6
  rw [ha0, zero_mul, Finset.sum_eq_single l (fun k _ hk => by rw [hqk k, hu k hk]; ring) (by simp), hq1, hpx] at f6
  have hc0 : (s.C.at (Q t0) nv ni).value (x0 0) (x0 1) (x0 2) (x0 3) = 0 := by
    have : (s.C.at (Q t0) nv ni).value (x0 0) (x0 1) (x0 2) (x0 3) * x0 3 = 0 := by linear_combination -f6
    exact (mul_eq_zero.1 this).resolve_right x03
  have hb0 := f4 l
  have hbk : ∀ k, k ≠ l → s.bB k = 0 := fun k hk => by
    exact (mul_eq_zero.1 (f3 l k hk.symm)).resolve_left hy
  have hck : ∀ k, k ≠ l → s.cA k = 0 := fun k hk => by
    have := f4 k
    rw [hu k hk, zero_mul] at this
    exact (mul_eq_zero.1 this.symm).resolve_left x03
  refine hno l (s.aA l) (s.cA l) hy ⟨hpx, ?_, ?_, ?_⟩
  · simp only [hv, zero_mul, add_zero]
    rw [ha0, zero_add, Finset.sum_eq_single l (fun k _ hk => by rw [hu k hk, zero_mul]) (by simp)]
  · rw [Finset.sum_eq_single l (fun k _ hk => by rw [hbk k hk, zero_mul]) (by simp), hb]
    have : (s.B.at (Q t0)).value (x0 1) (x0 2) (x0 3) = (s.aA l)⁻¹ * (x0 3 * s.cA l) := by
      rw [← hb0, inv_mul_cancel_left₀ hy]
    rw [this]
    ring
  · rw [hc0, Finset.sum_eq_single l (fun k _ hk => by rw [hqk k, hu k hk, hck k hk]; ring) (by simp), hq1]
    ring

/-- **C115** (partial: for provers that compute with group elements, where the security claim is about all efficient
ones). A prover has the keys, and `n` proofs for inputs `xs k` that were made by the simulator, so without a witness.
If it makes an accepted proof for `p` that is not a seen proof for `p`, changed as in C113, for more than `2m + 7` of
every `|F|` choices of the secrets and of the simulator's random values, then its coefficients contain a witness. In
particular this is so for every input for which it has seen no proof. -/
theorem C115_only_changed_copies_partial [Fintype F] (P : Pairing F G1 G2 GT) (hD : D.Lawful) (cs : R1CS F)
    (hr : cs.WellRanged) (hm : cs.numConstraints + cs.numInputs + 1 ≤ D.m) (chunks : Nat)
    (g1 : G1) (g2 : G2) (hne : P.e g1 g2 ≠ 0) {n : Nat} (xs : Fin n → List F)
    (hxs : ∀ k, (xs k).length = cs.primaryInputSize) (p : List F) (hp : p.length = cs.primaryInputSize)
    (s : Groth16Seen F n) (accepting : Finset (F × (Fin 4 → F) × (Fin n → F) × (Fin n → F)))
    (hacc : ∀ z ∈ accepting, z.2.1 2 ≠ 0 ∧ z.2.1 3 ≠ 0 ∧
      Groth16NewProof P D cs ⟨z.1, z.2.1 0, z.2.1 1, z.2.1 2, z.2.1 3, g1, g2⟩ chunks xs z.2.2 s p)
    (hcard : (2 * D.m + 7) * Fintype.card F ^ (2 * n + 4) < accepting.card) :
    cs.isSatisfied p s.C.l = some true := by
  classical
  cases n with
  | succ n => exact groth16_seen P hD cs hr hm chunks g1 g2 hne xs hxs p hp s accepting hacc hcard
  | zero =>
    refine C88_knowledge_soundness_partial P hD cs hr hm chunks g1 g2 hne p hp s.A s.B s.C
      (accepting.image fun z => (z.1, z.2.1)) ?_ ?_
    · intro y hy
      obtain ⟨z, hz, rfl⟩ := Finset.mem_image.1 hy
      obtain ⟨h2, h3, pk, vk, seen, π, hg, -, hpr, hv, -⟩ := hacc z hz
      simp only [Groth16Seen.prove, Option.bind_eq_bind, Option.pure_def, Option.bind_eq_some_iff,
        Option.some.injEq] at hpr
      obtain ⟨a, ha, b, hb, c, hc, rfl⟩ := hpr
      refine ⟨h2, h3, pk, vk, a, b, c, hg, ha, hb, hc, ?_⟩
      simpa using hv
    · rw [Finset.card_image_of_injective _ (fun z z' he => by
        simp only [Prod.mk.injEq] at he
        exact Prod.ext he.1 (Prod.ext he.2 (Subsingleton.elim _ _)))]
      refine lt_of_le_of_lt ?_ hcard
      exact Nat.mul_le_mul_right _ (by omega)

/-- **C115** (partial), for inputs without seen proofs: what a prover has seen of other inputs does not help it. -/
theorem C115_other_inputs_partial [Fintype F] (P : Pairing F G1 G2 GT) (hD : D.Lawful) (cs : R1CS F)
    (hr : cs.WellRanged) (hm : cs.numConstraints + cs.numInputs + 1 ≤ D.m) (chunks : Nat)
    (g1 : G1) (g2 : G2) (hne : P.e g1 g2 ≠ 0) {n : Nat} (xs : Fin n → List F)
    (hxs : ∀ k, (xs k).length = cs.primaryInputSize) (p : List F) (hp : p.length = cs.primaryInputSize)
    (hnew : ∀ k, p ≠ xs k)
    (s : Groth16Seen F n) (accepting : Finset (F × (Fin 4 → F) × (Fin n → F) × (Fin n → F)))
    (hacc : ∀ z ∈ accepting, z.2.1 2 ≠ 0 ∧ z.2.1 3 ≠ 0 ∧ ∃ pk vk seen π,
      groth16Generate P D cs ⟨z.1, z.2.1 0, z.2.1 1, z.2.1 2, z.2.1 3, g1, g2⟩ chunks = some (pk, vk) ∧
      (∀ k, groth16Simulate ⟨z.1, z.2.1 0, z.2.1 1, z.2.1 2, z.2.1 3, g1, g2⟩ vk (xs k) (z.2.2.1 k) (z.2.2.2 k) =
        some (seen k)) ∧
      s.prove g1 g2 pk vk seen = some π ∧ groth16VerifyWeak P vk p π = some true)
    (hcard : (2 * D.m + 7) * Fintype.card F ^ (2 * n + 4) < accepting.card) :
    cs.isSatisfied p s.C.l = some true := by
  refine C115_only_changed_copies_partial P hD cs hr hm chunks g1 g2 hne xs hxs p hp s accepting (fun z hz => ?_) hcard
  obtain ⟨h2, h3, pk, vk, seen, π, hg, hs, hpr, hv⟩ := hacc z hz
  exact ⟨h2, h3, pk, vk, seen, π, hg, hs, hpr, hv, fun k _ _ _ hk => hnew k hk.1⟩

/-- **C115** (partial), adaptive provers: the coefficients and the input may depend on the keys and on the seen
proofs. Whenever the proof of such a prover is accepted, its coefficients contain a witness, or it is a changed seen
proof for the same input, or else the secrets and the simulator's random values are in a set that is known from the
inputs and the coefficients alone, and that has no more than `2m + 7` of every `|F|` of them. -/
theorem C115_adaptive_provers_partial [Fintype F] (P : Pairing F G1 G2 GT) (hD : D.Lawful) (cs : R1CS F)
    (hr : cs.WellRanged) (hm : cs.numConstraints + cs.numInputs + 1 ≤ D.m) (chunks : Nat)
    (g1 : G1) (g2 : G2) (hne : P.e g1 g2 ≠ 0) {n : Nat} :
    ∃ bad : (Fin n → List F) → List F → Groth16Seen F n → Finset (F × (Fin 4 → F) × (Fin n → F) × (Fin n → F)),
      (∀ xs p s, (bad xs p s).card ≤ (2 * D.m + 7) * Fintype.card F ^ (2 * n + 4)) ∧
      ∀ (t alpha beta gamma delta : F) (a b : Fin n → F) pk vk seen xs p s π, gamma ≠ 0 → delta ≠ 0 →
        (∀ k, (xs k).length = cs.primaryInputSize) → p.length = cs.primaryInputSize →
        groth16Generate P D cs ⟨t, alpha, beta, gamma, delta, g1, g2⟩ chunks = some (pk, vk) →
        (∀ k, groth16Simulate ⟨t, alpha, beta, gamma, delta, g1, g2⟩ vk (xs k) (a k) (b k) = some (seen k)) →
        s.prove g1 g2 pk vk seen = some π → groth16VerifyWeak P vk p π = some true →
        cs.isSatisfied p s.C.l = some true ∨
          (∃ (k : Fin n) (y z : F), y ≠ 0 ∧ p = xs k ∧ π = groth16Change vk y z (seen k)) ∨
          (t, ![alpha, beta, gamma, delta], a, b) ∈ bad xs p s := by
  classical
  refine ⟨fun xs p s => Finset.univ.filter fun z => (∀ k, (xs k).length = cs.primaryInputSize) ∧
    p.length = cs.primaryInputSize ∧ cs.isSatisfied p s.C.l ≠ some true ∧ z.2.1 2 ≠ 0 ∧ z.2.1 3 ≠ 0 ∧
    Groth16NewProof P D cs ⟨z.1, z.2.1 0, z.2.1 1, z.2.1 2, z.2.1 3, g1, g2⟩ chunks xs z.2.2 s p,
    fun xs p s => ?_, ?_⟩
  · by_cases hp : (∀ k, (xs k).length = cs.primaryInputSize) ∧ p.length = cs.primaryInputSize ∧
        cs.isSatisfied p s.C.l ≠ some true
    · by_contra hcon
      exact hp.2.2 (C115_only_changed_copies_partial P hD cs hr hm chunks g1 g2 hne xs hp.1 p hp.2.1 s _
        (fun z hz => (Finset.mem_filter.1 hz).2.2.2.2) (not_le.1 hcon))
    · exact le_trans (le_of_eq (Finset.card_eq_zero.2 (Finset.filter_eq_empty_iff.2
        fun z _ hz => hp ⟨hz.1, hz.2.1, hz.2.2.1⟩))) (Nat.zero_le _)
  · intro t alpha beta gamma delta a b pk vk seen xs p s π h2 h3 hxs hp hg hs hpr hv
    by_cases hw : cs.isSatisfied p s.C.l = some true
    · exact .inl hw
    by_cases hc : ∃ (k : Fin n) (y z : F), y ≠ 0 ∧ p = xs k ∧ π = groth16Change vk y z (seen k)
    · exact .inr (.inl hc)
    · exact .inr (.inr (Finset.mem_filter.2 ⟨Finset.mem_univ _, hxs, hp, hw, h2, h3, pk, vk, seen, π, hg, hs, hpr, hv,
        fun k y z hy hk => hc ⟨k, y, z, hy, hk⟩⟩))

section Examples

set_option linter.constructorNameAsVariable false in
set_option maxRecDepth 40000 in
/-- the hypotheses of `C115_only_changed_copies_partial` are met: the honest prover for `3 · 3 = 9`, which has
seen two simulated proofs for the input `2`, and all secrets -/
example : ∃ (s : Groth16Seen (ZMod 97) 2)
    (accepting : Finset (ZMod 97 × (Fin 4 → ZMod 97) × (Fin 2 → ZMod 97) × (Fin 2 → ZMod 97))),
    (∀ z ∈ accepting, z.2.1 2 ≠ 0 ∧ z.2.1 3 ≠ 0 ∧
      Groth16NewProof exPairing97 (EvalDomain.ofPoints 4 (fun i => ((i + 1 : Nat) : ZMod 97)) 10) exRoot97
        ⟨z.1, z.2.1 0, z.2.1 1, z.2.1 2, z.2.1 3, (1 : ZMod 97), (1 : ZMod 97)⟩ 3 (fun _ => [2]) z.2.2 s [9]) ∧
    (2 * 4 + 7) * Fintype.card (ZMod 97) ^ (2 * 2 + 4) < accepting.card ∧ s.C.l = [3] ∧
    exRoot97.numConstraints + exRoot97.numInputs + 1 ≤ 4 := by
  obtain ⟨H, hH⟩ := C88_honest_prover_is_linear exPairing97 exDom97 exRoot97 exRoot97_ok (by decide) 3 [9] [3]
    rfl rfl (by decide +kernel)
  refine ⟨⟨honestA [9] [3] 5 4, honestB [9] [3] 6, honestC [9] [3] H 5 6 4, 0, 0, 0, 0, 0⟩,
    Finset.univ ×ˢ (Fintype.piFinset ![Finset.univ, Finset.univ, {0}ᶜ, {0}ᶜ] ×ˢ Finset.univ), fun z hz => ?_, ?_, rfl,
    by decide⟩
  · simp only [Finset.mem_product, Finset.mem_univ, true_and, and_true, Fintype.mem_piFinset,
      Fin.forall_fin_succ] at hz
    have h2 : z.2.1 2 ≠ 0 := by simpa using hz.2.2.1
    have h3 : z.2.1 3 ≠ 0 := by simpa using hz.2.2.2
    refine ⟨h2, h3, ?_⟩
    obtain ⟨pk, vk, π, hg, hpr, -, hv⟩ := C50_groth16_complete exPairing97 exDom97 exRoot97 exRoot97_ok
      (by decide) ⟨z.1, z.2.1 0, z.2.1 1, z.2.1 2, z.2.1 3, 1, 1⟩ h2 h3 3 (fun _ => rfl) (fun _ => rfl) [9] [3] rfl rfl
      (by decide +kernel) 5 6
    obtain ⟨e1, e2, e3⟩ := hH _ pk vk 5 6 π hg hpr
    choose seen hs using fun k : Fin 2 => C111_groth16_simulator_accepted exPairing97 exDom97 exRoot97 exRoot97_ok
      (by decide) ⟨z.1, z.2.1 0, z.2.1 1, z.2.1 2, z.2.1 3, 1, 1⟩ h3 3 (fun _ => rfl) (fun _ => rfl) pk vk hg [2] rfl
      (z.2.2.1 k) (z.2.2.2 k)
    refine ⟨pk, vk, seen, π, hg, fun k => (hs k).1, ?_, hv,
      fun _ _ _ _ hk => absurd (show [(9 : ZMod 97)] = [2] from hk.1) (by decide)⟩
    have e1' : (honestA (F := ZMod 97) [9] [3] 5 4).combine (1 : ZMod 97) pk vk = some π.gA := e1
    have e2' : (honestB (F := ZMod 97) [9] [3] 6).combine (1 : ZMod 97) pk vk = some π.gB := e2
    have e3' : (honestC (F := ZMod 97) [9] [3] H 5 6 4).combine (1 : ZMod 97) pk vk = some π.gC := e3
    unfold Groth16Seen.prove
    rw [e1', e2', e3']
    simp
  · rw [Finset.card_product, Finset.card_product, Fintype.card_piFinset, Fin.prod_univ_four]
    simp only [Matrix.cons_val_zero, Matrix.cons_val_one, Matrix.cons_val, Finset.card_compl,
      Finset.card_singleton, Finset.card_univ, ZMod.card, Fintype.card_prod, Fintype.card_fun, Fintype.card_fin]
    norm_num

end Examples

end Crypto3Zk
