import Verif.Spec.SeenProofs
import Verif.Lemmas.SeenProofs
import Verif.Props.GM17Linear
import Verif.Props.ZeroKnowledge
import Verif.Props.PGHR13Linear

/-!
# C114: the Groth–Maller argument is simulation extractable against provers that compute with group
elements
-/

set_option linter.unusedSectionVars false

namespace Crypto3Zk

open Finset Polynomial

variable {F : Type} [Field F] [DecidableEq F] {D : EvalDomain F}
variable {G1 G2 GT : Type} [AddCommGroup G1] [Module F G1] [AddCommGroup G2] [Module F G2]
  [AddCommGroup GT] [Module F GT] [DecidableEq GT]

theorem pairs_getD {α : Type} (f g : α → F) (l : List α) (j : Nat) (hj : j < l.length) :
    (l.flatMap fun i => [f i, g i]).getD (2 * j) 0 = f l[j] ∧
      (l.flatMap fun i => [f i, g i]).getD (2 * j + 1) 0 = g l[j] := by
  induction l generalizing j with
  | nil => simp at hj
  | cons a l ih =>
    cases j with
    | zero => simp
    | succ j =>
      have := ih j (by simpa using hj)
      rw [show 2 * (j + 1) = 2 * j + 2 by ring, show 2 * j + 2 + 1 = 2 * j + 1 + 2 by ring]
      simpa using this

/-- the rows after those of the constraints hold the inputs -/
theorem R1CS.sapARow_input (cs : R1CS F) (m : Nat) (x : Nat → F) :
    (cs.sapARow m x).getD (2 * cs.numConstraints) 0 = x 0 ∧ ∀ j < cs.numInputs,
      (cs.sapARow m x).getD (2 * cs.numConstraints + 1 + 2 * j) 0 = x (1 + j) + x 0 ∧
      (cs.sapARow m x).getD (2 * cs.numConstraints + 1 + (2 * j + 1)) 0 = x (1 + j) - x 0 := by
  have hl : (cs.constraints.zipIdx.flatMap fun ki =>
      [formalValue ki.1.a x + formalValue ki.1.b x, formalValue ki.1.a x - formalValue ki.1.b x]).length
        = 2 * cs.numConstraints := by
    rw [length_pairs]; simp [R1CS.numConstraints]
  have hl2 : ((List.range' 1 cs.numInputs).flatMap fun i => [x i + x 0, x i - x 0]).length =
      2 * cs.numInputs := by
    rw [length_pairs]; simp
  refine ⟨?_, fun j hj => ?_⟩
  · rw [R1CS.sapARow, padTo, List.getD_append _ _ _ _ (by simp only [List.length_append, hl, hl2]; simp),
      List.getD_append_right _ _ _ _ (by rw [hl]), hl]
    simp
  · have := pairs_getD (fun i => x i + x 0) (fun i => x i - x 0) (List.range' 1 cs.numInputs) j (by simpa using hj)
    simp only [List.getElem_range', one_mul] at this
    constructor
    · rw [R1CS.sapARow, padTo, List.getD_append _ _ _ _ (by
          simp only [List.length_append, hl, hl2, List.length_singleton]; omega),
        List.getD_append_right _ _ _ _ (by rw [hl]; omega), hl,
        List.getD_append_right _ _ _ _ (by simp only [List.length_singleton]; omega), ← this.1]
      congr 1
      simp only [List.length_singleton]; omega
    · rw [R1CS.sapARow, padTo, List.getD_append _ _ _ _ (by
          simp only [List.length_append, hl, hl2, List.length_singleton]; omega),
        List.getD_append_right _ _ _ _ (by rw [hl]; omega), hl,
        List.getD_append_right _ _ _ _ (by simp only [List.length_singleton]; omega), ← this.2]
      congr 1
      simp only [List.length_singleton]; omega

/-- the part of the input in the first polynomial at one evaluation point -/
def SapEval.inputA (q : SapEval F) (p : List F) : F :=
  q.At.getD 0 0 + ∑ i ∈ range p.length, p.getD i 0 * q.At.getD (1 + i) 0

/-- the part of the input in the second polynomial at one evaluation point -/
def SapEval.inputC (q : SapEval F) (p : List F) : F :=
  q.Ct.getD 0 0 + ∑ i ∈ range p.length, p.getD i 0 * q.Ct.getD (1 + i) 0

/-- what the verifier accumulates, as a multiple of the generator -/
def SapEval.inputPsi (q : SapEval F) (x : Fin 3 → F) (p : List F) : F :=
  x 2 * q.inputC p + (x 0 + x 1) * q.inputA p

theorem gm17Keys_query (cs : R1CS F) (T : Gm17Trapdoor F G1 G2) (q : SapEval F) (nv ni : Nat) :
    (gm17Keys cs T q nv ni).2.query = (psiVal q T.alpha T.beta T.gamma 0 • T.g) ::
      batchExp T.g ((List.range' 1 ni).map fun i => 1 * psiVal q T.alpha T.beta T.gamma i) := by
  simp [gm17Keys, batchExp, List.range_eq_range', List.range'_succ]

theorem gm17Keys_psi (t : F) (x : Fin 3 → F) (g : G1) (q : SapEval F) (ni : Nat) (p : List F)
    (hp : p.length = ni) :
    psiVal q (x 0) (x 1) (x 2) 0 • g + (List.zipWith (fun g x => x • g)
      (batchExp g ((List.range' 1 ni).map fun i => 1 * psiVal q (x 0) (x 1) (x 2) i)) p).sum =
      q.inputPsi x p • g := by
  rw [batchExp, zipWith_smul_batch,
    innerProduct_psiVal q _ _ _ _ _ ni (fun i => 1 + i) _ (by simp) (by simp) hp, ← add_smul]
  congr 1
  rw [SapEval.inputPsi, SapEval.inputA, SapEval.inputC, psiVal, hp]
  ring

/-- a simulated proof as multiples of the generators -/
theorem gm17Keys_simulate (cs : R1CS F) (t : F) (x : Fin 3 → F) (g : G1) (h : G2) (q : SapEval F) (nv ni : Nat)
    (p : List F) (hp : p.length = ni) (u : F) :
    gm17Simulate ⟨t, x 0, x 1, x 2, g, h⟩ (gm17Keys cs ⟨t, x 0, x 1, x 2, g, h⟩ q nv ni).2 p u =
      some ⟨u • g, u • h, (u ^ 2 + (x 0 + x 1) * u - x 2 * q.inputPsi x p) • g⟩ := by
  rw [gm17Simulate, gm17Keys_query]
  simp only [List.getElem?_cons_zero, List.drop_succ_cons, List.drop_zero, Option.bind_eq_bind,
    Option.bind_some, Option.pure_def]
  rw [multiexp, if_pos (by simp [batchExp, hp]), Option.bind_some]
  rw [gm17Keys_psi t x g q ni p hp, smul_smul, ← sub_smul]

/-- what acceptance means for multiples of the generators -/
theorem gm17Keys_verify (P : Pairing F G1 G2 GT) (cs : R1CS F) (t : F) (x : Fin 3 → F) (g : G1) (h : G2)
    (hne : P.e g h ≠ 0) (q : SapEval F) (nv ni : Nat) (p : List F) (hp : p.length = ni) (a b c : F)
    (hv : gm17VerifyWeak P (gm17Keys cs ⟨t, x 0, x 1, x 2, g, h⟩ q nv ni).2 p ⟨a • g, b • h, c • g⟩ = some true) :
    (a + x 0) * (b + x 1) = x 0 * x 1 + q.inputPsi x p * x 2 + c ∧ a * x 2 = x 2 * b := by
  obtain ⟨e1, e2⟩ := ((C52_verifier_iff P _ _ _ (gm17Keys_query cs _ q nv ni) p
    (by simp [batchExp, hp]) _).1.1 hv).2.2.2
  have hpsi := gm17Keys_psi t x g q ni p hp
  simp only [gm17Keys] at e1 e2
  rw [hpsi] at e1
  have hone : ∀ c : F, P.e (c • g) h = c • P.e g h := by
    intro c; rw [map_smul, LinearMap.smul_apply]
  simp only [← add_smul, pair_smul, hone] at e1 e2
  exact ⟨smul_left_injective F hne e1, smul_left_injective F hne e2⟩

/-- the elements of the proof of a prover that has seen proofs, as multiples of the generators -/
theorem gm17_seen_at (P : Pairing F G1 G2 GT) (cs : R1CS F) (g : G1) (h : G2) (hne : P.e g h ≠ 0)
    {N : Nat} (xs : Fin N → List F) (p : List F) (s : Gm17Seen F N) (t : F) (x : Fin 3 → F) (u : Fin N → F)
    (q : SapEval F) (nv ni : Nat) (lA : q.At.length = nv + 1) (n4 : q.t = t)
    (hp : p.length = ni) (hxs : ∀ k, (xs k).length = ni)
    (hgen : gm17Generate D cs (⟨t, x 0, x 1, x 2, g, h⟩ : Gm17Trapdoor F G1 G2) =
      some (gm17Keys cs ⟨t, x 0, x 1, x 2, g, h⟩ q nv ni))
    (hacc : Gm17NewProof P D cs ⟨t, x 0, x 1, x 2, g, h⟩ xs u s p) :
    let a := (s.A.at q nv ni).value x +
      ∑ k, (s.aA k * u k + s.aC k * (u k ^ 2 + (x 0 + x 1) * u k - x 2 * q.inputPsi x (xs k)))
    let b := (s.B.at q).value x + ∑ k, s.bB k * u k
    let c := (s.C.at q nv ni).value x +
      ∑ k, (s.cA k * u k + s.cC k * (u k ^ 2 + (x 0 + x 1) * u k - x 2 * q.inputPsi x (xs k)))
    (a + x 0) * (b + x 1) = x 0 * x 1 + q.inputPsi x p * x 2 + c ∧ a * x 2 = x 2 * b ∧
      s.C.c1.length = nv - ni ∧
      ∀ k, ¬ (p = xs k ∧ a = u k ∧ b = u k ∧ c = u k ^ 2 + (x 0 + x 1) * u k - x 2 * q.inputPsi x (xs k)) := by
  obtain ⟨pk, vk, seen, π, hg, hsim, hpr, hv, hno⟩ := hacc
  rw [hgen] at hg
  simp only [Option.some.injEq] at hg
  obtain ⟨rfl, rfl⟩ := Prod.ext_iff.1 hg
  have hseen : seen = fun k => (⟨u k • g, u k • h,
      (u k ^ 2 + (x 0 + x 1) * u k - x 2 * q.inputPsi x (xs k)) • g⟩ : Gm17Proof G1 G2) := by
    funext k
    have := hsim k
    rw [gm17Keys_simulate cs t x g h q nv ni (xs k) (hxs k)] at this
    exact (Option.some.inj this).symm
  subst hseen
  simp only [Gm17Seen.prove, Option.bind_eq_bind, Option.bind_eq_some_iff, Option.pure_def,
    Option.some.injEq] at hpr
  obtain ⟨gA, hA, gB, hB, gC, hC, rfl⟩ := hpr
  obtain ⟨rA, -⟩ := Gm17Coeffs1.combine_eq cs _ q nv ni lA n4 s.A gA hA
  obtain ⟨rC, l1, -⟩ := Gm17Coeffs1.combine_eq cs _ q nv ni lA n4 s.C gC hC
  have rB := Gm17Coeffs2.combine_eq cs _ q nv ni s.B gB hB
  have hx3 : ![x 0, x 1, x 2] = x := by ext i; fin_cases i <;> rfl
  simp only [hx3] at rA rB rC
  subst rA rB rC
  simp only [smul_smul, ← add_smul, ← Finset.sum_smul] at hv hno
  obtain ⟨e1, e2⟩ := gm17Keys_verify P cs t x g h hne q nv ni p hp _ _ _ hv
  refine ⟨e1, e2, l1, fun k hk => hno k ⟨hk.1, ?_⟩⟩
  rw [hk.2.1, hk.2.2.1, hk.2.2.2]

/-- a constant that the prover gets from the query of the inputs is zero -/
theorem seen_constant (hD : D.Lawful) (h2 : (2 : F) ≠ 0) (cs : R1CS F) (hm : cs.sapDomainSize ≤ D.m)
    (hin : 0 < cs.numInputs) (x : Nat → F) (e : F) (S : Finset F) (hS : D.m < S.card)
    (heq : ∀ t ∈ S, dot (cs.sapARow D.m x) (fun i => (D.lagrange t).getD i 0) = e) : e = 0 := by
  have hl := R1CS.length_sapARow D.m cs x hm
  have hpoly : interp D (cs.sapARow D.m x) = C e := by
    apply eq_of_many_eval (n := D.m) (natDegree_interp_le hD _ hl) (by simp) S hS
    intro t ht
    rw [interp_eval hD _ hl, heq t ht, eval_C]
  have hrow : ∀ i < D.m, (cs.sapARow D.m x).getD i 0 = e := by
    intro i hi
    rw [← interp_point hD _ hl i hi, hpoly, eval_C]
  obtain ⟨r0, r1⟩ := R1CS.sapARow_input cs D.m x
  obtain ⟨r1, r2⟩ := r1 0 hin
  simp only [R1CS.sapDomainSize] at hm
  rw [hrow _ (by omega)] at r0 r1 r2
  have : 2 * e = 0 := by linear_combination 2 * r0 - r1 + r2
  exact (mul_eq_zero.1 this).resolve_left h2

/-- inputs that differ by elements of the proving key are the same -/
theorem seen_inputs (hD : D.Lawful) (cs : R1CS F) (hm : cs.sapDomainSize ≤ D.m) (x : Nat → F) (h0 : x 0 = 0) (d : F)
    (S : Finset F) (hS : D.m < S.card)
    (heq : ∀ t ∈ S, dot (cs.sapARow D.m x) (fun i => (D.lagrange t).getD i 0) + d * D.vanishing t = 0) :
    ∀ j < cs.numInputs, x (1 + j) = 0 := by
  have hl := R1CS.length_sapARow D.m cs x hm
  have hz : ∀ t, dot (List.replicate D.m (0 : F)) (fun i => (D.lagrange t).getD i 0) = 0 := by
    intro t
    rw [dot_eq_sum]
    refine Finset.sum_eq_zero fun i hi => ?_
    rw [List.getD_replicate _ (by simpa using hi), zero_mul]
  have hrow := rows_eq_of_many hD _ (List.replicate D.m 0) d 0 hl (by simp) S hS (fun t ht => by
    rw [heq t ht, hz]; ring)
  intro j hj
  obtain ⟨r1, -⟩ := (R1CS.sapARow_input cs D.m x).2 j hj
  simp only [R1CS.sapDomainSize] at hm
  rw [hrow _ (by omega), List.getD_replicate _ (by omega), h0, add_zero] at r1
  exact r1.symm

theorem dot_first (l : List F) (n k : Nat) (hl : l.length = n + 1) (hk : k ≤ n) (f : Nat → F) :
    dot l (fun i => if i < k + 1 then f i else 0) = ∑ i ∈ range (k + 1), f i * l.getD i 0 := by
  rw [dot_eq_sum, hl, ← Finset.sum_subset (Finset.range_mono (by omega : k + 1 ≤ n + 1))]
  · refine Finset.sum_congr rfl fun i hi => ?_
    rw [if_pos (by simpa using hi), mul_comm]
  · intro i _ hi
    rw [if_neg (by simpa using hi), mul_zero]

/-- The heart of C114: if the proofs are new for many secrets, the prover does not use the seen proofs. -/
theorem seen_unused [Fintype F] (P : Pairing F G1 G2 GT) (hD : D.Lawful)
    (h2 : (2 : F) ≠ 0) (cs : R1CS F) (hr : cs.WellRanged) (hm : cs.sapDomainSize ≤ D.m)
    (hin : 0 < cs.numInputs) (g : G1) (h : G2) (hne : P.e g h ≠ 0) {n : Nat} (xs : Fin (n + 1) → List F)
    (hxs : ∀ k, (xs k).length = cs.primaryInputSize) (p : List F) (hp : p.length = cs.primaryInputSize)
    (s : Gm17Seen F (n + 1)) (accepting : Finset (F × (Fin 3 → F) × (Fin (n + 1) → F)))
    (hacc : ∀ z ∈ accepting, Gm17NewProof P D cs ⟨z.1, z.2.1 0, z.2.1 1, z.2.1 2, g, h⟩ xs z.2.2 s p)
    (hcard : (2 * D.m + 5) * Fintype.card F ^ (n + 4) < accepting.card) :
    ∀ k, s.aA k = 0 ∧ s.aC k = 0 ∧ s.bB k = 0 ∧ s.cA k = 0 ∧ s.cC k = 0 := by
  classical
  set K := Fintype.card F with hK
  obtain ⟨good, hgood, hslice⟩ := many_slices accepting (2 * D.m) (5 * K ^ (n + 3)) (by
    rw [Fintype.card_prod, Fintype.card_fun, Fintype.card_fun, Fintype.card_fin, Fintype.card_fin, ← hK]
    calc _ = (2 * D.m + 5) * K ^ (n + 4) := by ring
      _ < _ := hcard)
  -- for every good point there are many α, β, γ, each with many random values of the simulator
  have hx : ∀ t ∈ good, ∃ X : Finset (Fin 3 → F), 3 * K ^ 2 < X.card ∧ ∀ x ∈ X, ∃ U : Finset (Fin (n + 1) → F),
      2 * K ^ n < U.card ∧ ∀ u ∈ U, Gm17NewProof P D cs ⟨t, x 0, x 1, x 2, g, h⟩ xs u s p := by
    intro t ht
    obtain ⟨X, hX, hU⟩ := many_slices (Finset.univ.filter fun b => (t, b) ∈ accepting) (3 * K ^ 2) (2 * K ^ n) (by
      rw [Fintype.card_fun, Fintype.card_fun, Fintype.card_fin, Fintype.card_fin, ← hK]
      calc _ = 5 * K ^ (n + 3) := by ring
        _ < _ := hslice t ht)
    exact ⟨X, hX, fun x hx => ⟨_, hU x hx, fun u hu => hacc _
      (Finset.mem_filter.1 (Finset.mem_filter.1 hu).2).2⟩⟩
  set nv := cs.sapNumVariables with hnv0
  set ni := cs.numInputs with hni0
  have hle : ni ≤ nv := by simp [hni0, hnv0, R1CS.sapNumVariables]
  have hpi : p.length = ni := by rw [hp]; rfl
  have hxi : ∀ k, (xs k).length = ni := fun k => by rw [hxs k]; rfl
  -- the values at one point
  have hq : ∀ t, ∃ q, q.At.length = nv + 1 ∧ q.Ct.length = nv + 1 ∧ q.Zt = D.vanishing t ∧
      (∀ x, dot q.At x = dot (cs.sapARow D.m x) (fun i => (D.lagrange t).getD i 0)) ∧
      ∀ (x : Fin 3 → F) (u : Fin (n + 1) → F), Gm17NewProof P D cs ⟨t, x 0, x 1, x 2, g, h⟩ xs u s p →
      let a := (s.A.at q nv ni).value x +
        ∑ k, (s.aA k * u k + s.aC k * (u k ^ 2 + (x 0 + x 1) * u k - x 2 * q.inputPsi x (xs k)))
      let b := (s.B.at q).value x + ∑ k, s.bB k * u k
      let c := (s.C.at q nv ni).value x +
        ∑ k, (s.cA k * u k + s.cC k * (u k ^ 2 + (x 0 + x 1) * u k - x 2 * q.inputPsi x (xs k)))
      (a + x 0) * (b + x 1) = x 0 * x 1 + q.inputPsi x p * x 2 + c ∧ a * x 2 = x 2 * b ∧
        s.C.c1.length = nv - ni ∧
        ∀ k, ¬ (p = xs k ∧ a = u k ∧ b = u k ∧
          c = u k ^ 2 + (x 0 + x 1) * u k - x 2 * q.inputPsi x (xs k)) := by
    intro t
    obtain ⟨qi, q, -, hq, -, n1, n2, n3, n4, lA, lC, eH, eZ, dA, dC⟩ := R1CS.sapEval_spec hD cs hr hm t
    refine ⟨q, lA, lC, eZ, dA, fun x u hn => ?_⟩
    exact gm17_seen_at P cs g h hne xs p s t x u q nv ni lA n4 hpi hxi
      (gm17Generate_eq D cs ⟨t, x 0, x 1, x 2, g, h⟩ q hq nv ni n1 n3 hle lA lC) hn
  choose Q lA lC eZ dA hQ using hq
  obtain ⟨t0, ht0⟩ : good.Nonempty := Finset.card_pos.1 (by omega)
  -- the first two elements use the seen proofs alike
  have hconst : ∀ k, s.aC k = 0 ∧ s.bB k = s.aA k := by
    obtain ⟨X, hX, hU⟩ := hx t0 ht0
    obtain ⟨x, hxX, hγ⟩ : ∃ x ∈ X, x 2 ≠ 0 := by
      by_contra hcon
      push Not at hcon
      have := coefficients_zero_of_many (F := F) 2 1 (![![0, 0, 1]] : Fin 1 → Fin 3 → Nat)
        (by decide +kernel) (by decide +kernel) (fun _ => 1) X (by
          intro x hx
          have h0 := hcon x hx
          rw [Fin.sum_univ_one, Fin.prod_univ_three]
          simp [h0]) (by rw [← hK]; omega) 0
      exact one_ne_zero this
    obtain ⟨U, hUc, hUa⟩ := hU x hxX
    obtain ⟨-, hs⟩ := seen_second h2 n ((s.A.at (Q t0) nv ni).value x) ((s.B.at (Q t0)).value x) (x 0 + x 1) (x 2)
      (fun k => (Q t0).inputPsi x (xs k)) s.aA s.aC s.bB U hUc fun u hu => (hQ t0 x u (hUa u hu)).2.1
    intro k
    obtain ⟨e1, e2⟩ := hs k
    have h1 := (mul_eq_zero.1 e1).resolve_left hγ
    have h3 := (mul_eq_zero.1 e2).resolve_left hγ
    exact ⟨h1, by rw [h1] at h3; linear_combination -h3⟩
  have haC : ∀ k, s.aC k = 0 := fun k => (hconst k).1
  have hbB : s.bB = s.aA := funext fun k => (hconst k).2
  -- what follows for each point
  have hpt : ∀ t (x : Fin 3 → F) (U : Finset (Fin (n + 1) → F)), 2 * K ^ n < U.card →
      (∀ u ∈ U, Gm17NewProof P D cs ⟨t, x 0, x 1, x 2, g, h⟩ xs u s p) →
      x 2 * ((s.A.at (Q t) nv ni).value x - (s.B.at (Q t)).value x) = 0 ∧
      ((s.A.at (Q t) nv ni).value x + x 0) * ((s.B.at (Q t)).value x + x 1) = x 0 * x 1 +
        ((Q t).inputPsi x p - ∑ k, s.cC k * (Q t).inputPsi x (xs k)) * x 2 + (s.C.at (Q t) nv ni).value x ∧
      (∀ k, s.aA k * ((s.A.at (Q t) nv ni).value x + (s.B.at (Q t)).value x) + s.aA k * (x 0 + x 1) =
        s.cA k + s.cC k * (x 0 + x 1)) ∧ (∀ k, s.cC k = s.aA k * s.aA k) ∧
      ∀ i j, i ≠ j → s.aA i * s.aA j = 0 := by
    intro t x U hUc hUa
    obtain ⟨e0, -⟩ := seen_second h2 n ((s.A.at (Q t) nv ni).value x) ((s.B.at (Q t)).value x) (x 0 + x 1) (x 2)
      (fun k => (Q t).inputPsi x (xs k)) s.aA s.aC s.bB U hUc fun u hu => (hQ t x u (hUa u hu)).2.1
    obtain ⟨e1, e2, e3, e4⟩ := seen_first h2 n ((s.A.at (Q t) nv ni).value x) ((s.B.at (Q t)).value x)
      ((s.C.at (Q t) nv ni).value x) (x 0) (x 1) (x 2) ((Q t).inputPsi x p)
      (fun k => (Q t).inputPsi x (xs k)) s.aA s.cC s.cA U hUc fun u hu => by
        have := (hQ t x u (hUa u hu)).1
        simp only [haC, zero_mul, add_zero, hbB] at this
        exact this
    simp only [haC, zero_mul, Finset.sum_const_zero, mul_zero, sub_zero] at e0
    exact ⟨e0, e1, e2, e3, e4⟩
  obtain ⟨X0, hX0, hU0⟩ := hx t0 ht0
  obtain ⟨x0, hx0⟩ : X0.Nonempty := Finset.card_pos.1 (by omega)
  obtain ⟨U0, hU0c, hU0a⟩ := hU0 x0 hx0
  obtain ⟨-, -, f1, f2, f3⟩ := hpt t0 x0 U0 hU0c hU0a
  by_cases hu : ∀ k, s.aA k = 0
  · intro k
    have c1 : s.cC k = 0 := by rw [f2 k, hu k, zero_mul]
    refine ⟨hu k, haC k, by rw [hbB, hu k], ?_, c1⟩
    have := f1 k
    rw [hu k, c1] at this
    linear_combination -this
  -- the prover uses the seen proof `k`
  exfalso
  push Not at hu
  obtain ⟨k, hk⟩ := hu
  have hl0 : ∀ l, l ≠ k → s.aA l = 0 := fun l hl => (mul_eq_zero.1 (f3 l k hl)).resolve_right hk
  have hused : ∀ t ∈ good, s.aA k = 1 ∧ s.cA k = 2 * s.B.one ∧ (s.C.at (Q t) nv ni).ab = s.B.one ∧
      ((Q t).inputA p - s.aA k * s.aA k * (Q t).inputA (xs k)) + (s.C.at (Q t) nv ni).abg = 0 ∧
      ∀ x : Fin 3 → F, (s.A.at (Q t) nv ni).value x = s.B.one ∧ (s.B.at (Q t)).value x = s.B.one ∧
        (s.C.at (Q t) nv ni).value x = s.B.one ^ 2 + s.B.one * (x 0 + x 1) -
          (x 2 * ((Q t).inputC p - s.aA k * s.aA k * (Q t).inputC (xs k)) +
            (x 0 + x 1) * ((Q t).inputA p - s.aA k * s.aA k * (Q t).inputA (xs k))) * x 2 := by
    intro t ht
    obtain ⟨X, hX, hU⟩ := hx t ht
    refine seen_used h2 (s.A.at (Q t) nv ni) (s.B.at (Q t)) (s.C.at (Q t) nv ni) _ _ (s.aA k) (s.cA k) hk X hX
      ?_ ?_ ?_
    · intro x hxX
      obtain ⟨U, hUc, hUa⟩ := hU x hxX
      exact (hpt t x U hUc hUa).1
    · intro x hxX
      obtain ⟨U, hUc, hUa⟩ := hU x hxX
      obtain ⟨-, -, e, e', -⟩ := hpt t x U hUc hUa
      rw [e k, e' k]
    · intro x hxX
      obtain ⟨U, hUc, hUa⟩ := hU x hxX
      obtain ⟨-, e, -⟩ := hpt t x U hUc hUa
      rw [e, Finset.sum_eq_single k (fun l _ hl => by rw [f2 l, hl0 l hl]; ring) (by simp), f2 k]
      simp only [SapEval.inputPsi]
      ring
  have hDm : D.m < good.card := by omega
  -- the constant is zero
  have he : s.B.one = 0 := by
    refine seen_constant hD h2 cs hm hin (fun i => if i < ni + 1 then s.C.query.getD i 0 else 0) _ good hDm
      fun t ht => ?_
    rw [← dA t, dot_first _ nv ni (lA t) hle, ← (hused t ht).2.2.1]
    rfl
  obtain ⟨u1, u2, -, -, -⟩ := hused t0 ht0
  obtain ⟨u0, hu0⟩ : U0.Nonempty := Finset.card_pos.1 (by omega)
  have l1 := (hQ t0 x0 u0 (hU0a u0 hu0)).2.2.1
  -- the input is the one of the seen proof
  have hpx : p = xs k := by
    have hz := seen_inputs hD cs hm (fun i => envOf (p ++ s.C.c1) i -
      envOf (xs k ++ List.replicate (nv - ni) 0) i) (by simp [envOf]) s.C.abGammaZ good hDm (by
      intro t ht
      obtain ⟨-, -, -, u4, -⟩ := hused t ht
      rw [u1] at u4
      have hsub : dot (Q t).At (fun i => envOf (p ++ s.C.c1) i - envOf (xs k ++ List.replicate (nv - ni) 0) i) =
          dot (Q t).At (envOf (p ++ s.C.c1)) - dot (Q t).At (envOf (xs k ++ List.replicate (nv - ni) 0)) := by
        rw [dot_eq_sum, dot_eq_sum, dot_eq_sum, ← Finset.sum_sub_distrib]
        exact Finset.sum_congr rfl fun i _ => by ring
      have hzero : ∑ i ∈ range (nv - ni), (List.replicate (nv - ni) (0 : F)).getD i 0 *
          (Q t).At.getD ((xs k).length + 1 + i) 0 = 0 :=
        Finset.sum_eq_zero fun i hi => by rw [List.getD_replicate _ (by simpa using hi), zero_mul]
      rw [← dA t, hsub, dot_split _ _ _ (by rw [lA t, hpi, l1]; omega),
        dot_split _ _ _ (by rw [lA t, hxi, List.length_replicate]; omega), List.length_replicate, hzero]
      simp only [SapEval.inputA, Gm17Coeffs1.at, eZ] at u4
      rw [l1, hpi]
      rw [hpi] at u4
      linear_combination u4)
    apply List.ext_getElem
    · rw [hpi, hxi]
    · intro i h1 h3
      have := hz i (by rw [hpi] at h1; exact h1)
      rw [show 1 + i = i + 1 by ring] at this
      simp only [envOf] at this
      rw [List.getD_append _ _ _ _ h1, List.getD_append _ _ _ _ h3, List.getD_eq_getElem _ _ h1,
        List.getD_eq_getElem _ _ h3] at this
      exact sub_eq_zero.1 this
  -- and so is the proof
  obtain ⟨-, -, -, hno⟩ := hQ t0 x0 u0 (hU0a u0 hu0)
  obtain ⟨-, -, -, -, hval⟩ := hused t0 ht0
  obtain ⟨v1, v2, v3⟩ := hval x0
  have hsum : ∑ l, s.aA l * u0 l = u0 k := by
    rw [Finset.sum_eq_single k (fun l _ hl => by rw [hl0 l hl, zero_mul]) (by simp), u1, one_mul]
  refine hno k ⟨hpx, ?_, ?_, ?_⟩
  · simp only [haC, zero_mul, add_zero]
    rw [hsum, v1, he, zero_add]
  · rw [hbB, hsum, v2, he, zero_add]
  · rw [v3, he, Finset.sum_eq_single k (fun l _ hl => by
      have c1 : s.cC l = 0 := by rw [f2 l, hl0 l hl, zero_mul]
      have c2 : s.cA l = 0 := by
        have := f1 l
        rw [hl0 l hl, c1] at this
        linear_combination -this
      rw [c1, c2]; ring) (by simp), f2 k, u1, u2, he, hpx]
    ring

/-- **C114** (partial: for provers that compute with group elements, where the security claim is about all efficient
ones). A prover has the keys, and `n` proofs for inputs `xs k` that were made by the simulator, so without a witness.
If it makes a new accepted proof for `p` — for an input for which it has seen none, or a proof that it has not seen —
for more than `2m + 5` of every `|F|` choices of the secrets and of the simulator's random values, then its
coefficients contain a witness for `p`. The proofs of `C113` show that the other arguments of the library do not have
this property. -/
theorem C114_simulation_extractable_partial [Fintype F] (P : Pairing F G1 G2 GT) (hD : D.Lawful)
    (h2 : (2 : F) ≠ 0) (cs : R1CS F) (hr : cs.WellRanged)
    (hm : 2 * cs.numConstraints + 2 * cs.numInputs + 1 ≤ D.m)
    (hin : 0 < cs.numInputs) (g : G1) (h : G2) (hne : P.e g h ≠ 0) {n : Nat} (xs : Fin n → List F)
    (hxs : ∀ k, (xs k).length = cs.primaryInputSize) (p : List F) (hp : p.length = cs.primaryInputSize)
    (s : Gm17Seen F n) (accepting : Finset (F × (Fin 3 → F) × (Fin n → F)))
    (hacc : ∀ z ∈ accepting, Gm17NewProof P D cs ⟨z.1, z.2.1 0, z.2.1 1, z.2.1 2, g, h⟩ xs z.2.2 s p)
    (hcard : (2 * D.m + 5) * Fintype.card F ^ (n + 3) < accepting.card) :
    cs.isSatisfied p (s.C.c1.take cs.auxiliaryInputSize) = some true := by
  classical
  have h0 : ∀ k, s.aA k = 0 ∧ s.aC k = 0 ∧ s.bB k = 0 ∧ s.cA k = 0 ∧ s.cC k = 0 := by
    cases n with
    | zero => exact fun k => k.elim0
    | succ n => exact seen_unused P hD h2 cs hr hm hin g h hne xs hxs p hp s accepting hacc hcard
  refine C90_knowledge_soundness_partial P hD h2 cs hr hm g h hne p hp s.A s.B s.C
    (accepting.image fun z => (z.1, z.2.1)) ?_ ?_
  · intro y hy
    obtain ⟨z, hz, rfl⟩ := Finset.mem_image.1 hy
    obtain ⟨pk, vk, seen, π, hg, -, hpr, hv, -⟩ := hacc z hz
    simp only [Gm17Seen.prove, Option.bind_eq_bind, Option.pure_def, Option.bind_eq_some_iff,
      Option.some.injEq] at hpr
    obtain ⟨a, ha, b, hb, c, hc, rfl⟩ := hpr
    refine ⟨pk, vk, a, b, c, hg, ha, hb, hc, ?_⟩
    simpa [h0] using hv
  · have hf := Finset.card_le_mul_card_image (f := fun z : F × (Fin 3 → F) × (Fin n → F) => (z.1, z.2.1)) accepting
      (Fintype.card F ^ n) (by
        intro y _
        rw [show Fintype.card F ^ n = (Finset.univ : Finset (Fin n → F)).card by
          rw [Finset.card_univ, Fintype.card_fun, Fintype.card_fin]]
        refine Finset.card_le_card_of_injOn (fun z => z.2.2) (fun _ _ => Finset.mem_coe.2 (Finset.mem_univ _)) ?_
        intro z hz z' hz' he
        have e1 := (Finset.mem_filter.1 (Finset.mem_coe.1 hz)).2
        have e2 := (Finset.mem_filter.1 (Finset.mem_coe.1 hz')).2
        have e3 := e1.trans e2.symm
        simp only [Prod.mk.injEq] at e3
        exact Prod.ext e3.1 (Prod.ext e3.2 he))
    have hpos : 0 < Fintype.card F ^ n := Nat.pow_pos (Fintype.card_pos)
    by_contra hcon
    rw [not_lt] at hcon
    refine absurd (hcard.trans_le (hf.trans (Nat.mul_le_mul_left _ hcon))) (not_lt.2 ?_)
    calc Fintype.card F ^ n * ((2 * D.m + 3) * Fintype.card F ^ 3)
        = (2 * D.m + 3) * Fintype.card F ^ (n + 3) := by ring
      _ ≤ _ := Nat.mul_le_mul_right _ (by omega)

/-- **C114** (partial), adaptive provers: the coefficients and the input may depend on the keys and on the seen
proofs. Whenever the proof of such a prover is accepted, its coefficients contain a witness, or it is a copy of a seen
proof, or else the secrets and the simulator's random values are in a set that is known from the inputs and the
coefficients alone, and that has no more than `2m + 5` of every `|F|` of them. -/
theorem C114_adaptive_provers_partial [Fintype F] (P : Pairing F G1 G2 GT)
    (hD : D.Lawful) (h2 : (2 : F) ≠ 0) (cs : R1CS F) (hr : cs.WellRanged)
    (hm : 2 * cs.numConstraints + 2 * cs.numInputs + 1 ≤ D.m)
    (hin : 0 < cs.numInputs) (g : G1) (h : G2) (hne : P.e g h ≠ 0) {n : Nat} :
    ∃ bad : (Fin n → List F) → List F → Gm17Seen F n → Finset (F × (Fin 3 → F) × (Fin n → F)),
      (∀ xs p s, (bad xs p s).card ≤ (2 * D.m + 5) * Fintype.card F ^ (n + 3)) ∧
      ∀ (t alpha beta gamma : F) (u : Fin n → F) pk vk seen xs p s π,
        (∀ k, (xs k).length = cs.primaryInputSize) → p.length = cs.primaryInputSize →
        gm17Generate D cs ⟨t, alpha, beta, gamma, g, h⟩ = some (pk, vk) →
        (∀ k, gm17Simulate ⟨t, alpha, beta, gamma, g, h⟩ vk (xs k) (u k) = some (seen k)) →
        s.prove g pk vk seen = some π → gm17VerifyWeak P vk p π = some true →
        cs.isSatisfied p (s.C.c1.take cs.auxiliaryInputSize) = some true ∨ (∃ k, p = xs k ∧ π = seen k) ∨
          (t, ![alpha, beta, gamma], u) ∈ bad xs p s := by
  classical
  refine ⟨fun xs p s => Finset.univ.filter fun z => (∀ k, (xs k).length = cs.primaryInputSize) ∧
    p.length = cs.primaryInputSize ∧ cs.isSatisfied p (s.C.c1.take cs.auxiliaryInputSize) ≠ some true ∧
    Gm17NewProof P D cs ⟨z.1, z.2.1 0, z.2.1 1, z.2.1 2, g, h⟩ xs z.2.2 s p, fun xs p s => ?_, ?_⟩
  · by_cases hp : (∀ k, (xs k).length = cs.primaryInputSize) ∧ p.length = cs.primaryInputSize ∧
        cs.isSatisfied p (s.C.c1.take cs.auxiliaryInputSize) ≠ some true
    · by_contra hcon
      exact hp.2.2 (C114_simulation_extractable_partial P hD h2 cs hr hm hin g h hne xs hp.1 p hp.2.1 s _
        (fun z hz => (Finset.mem_filter.1 hz).2.2.2.2) (not_le.1 hcon))
    · exact le_trans (le_of_eq (Finset.card_eq_zero.2 (Finset.filter_eq_empty_iff.2
        fun z _ hz => hp ⟨hz.1, hz.2.1, hz.2.2.1⟩))) (Nat.zero_le _)
  · intro t alpha beta gamma u pk vk seen xs p s π hxs hp hg hs hpr hv
    by_cases hw : cs.isSatisfied p (s.C.c1.take cs.auxiliaryInputSize) = some true
    · exact .inl hw
    by_cases hc : ∃ k, p = xs k ∧ π = seen k
    · exact .inr (.inl hc)
    · exact .inr (.inr (Finset.mem_filter.2 ⟨Finset.mem_univ _, hxs, hp, hw, pk, vk, seen, π, hg, hs, hpr, hv,
        fun k hk => hc ⟨k, hk⟩⟩))

section Examples

set_option maxRecDepth 20000 in
/-- the hypotheses of `C114_simulation_extractable_partial` are met: the honest prover for `3 · 3 = 9`, which has
seen two simulated proofs for the input `2`, and all secrets -/
example : ∃ (s : Gm17Seen (ZMod 97) 2) (accepting : Finset (ZMod 97 × (Fin 3 → ZMod 97) × (Fin 2 → ZMod 97))),
    (∀ z ∈ accepting, Gm17NewProof exPairing97 (EvalDomain.ofPoints 5 (fun i => ((i + 1 : Nat) : ZMod 97)) 10)
      exRoot97 ⟨z.1, z.2.1 0, z.2.1 1, z.2.1 2, (1 : ZMod 97), (1 : ZMod 97)⟩ (fun _ => [2]) z.2.2 s [9]) ∧
    (2 * 5 + 5) * Fintype.card (ZMod 97) ^ (2 + 3) < accepting.card ∧ s.C.c1.take 1 = [3] ∧
    0 < exRoot97.numInputs ∧ 2 * exRoot97.numConstraints + 2 * exRoot97.numInputs + 1 ≤ 5 := by
  obtain ⟨A, B, C, hw, hH⟩ := C90_honest_prover_is_linear (G1 := ZMod 97) (G2 := ZMod 97) exDom97' exRoot97
    exRoot97_ok (by decide) [9] [3] rfl rfl (by decide +kernel) 5 6 7
  refine ⟨⟨A, B, C, 0, 0, 0, 0, 0⟩, Finset.univ, fun z _ => ?_, ?_, hw, by decide, by decide⟩
  · obtain ⟨pk, vk, π, hg, hpr, -, hv⟩ := C52_gm17_complete exPairing97 exDom97' exRoot97 exRoot97_ok
      (by decide) ⟨z.1, z.2.1 0, z.2.1 1, z.2.1 2, 1, 1⟩ (fun _ => rfl) (fun _ => rfl) [9] [3] rfl rfl
      (by decide +kernel) 5 6 7
    obtain ⟨e1, e2, e3⟩ := hH _ pk vk π hg hpr
    choose seen hs using fun k : Fin 2 => C111_gm17_simulator_accepted exPairing97 exDom97' exRoot97 exRoot97_ok
      (by decide) ⟨z.1, z.2.1 0, z.2.1 1, z.2.1 2, 1, 1⟩ (fun _ => rfl) (fun _ => rfl) pk vk hg [2] rfl (z.2.2 k)
    refine ⟨pk, vk, seen, π, hg, fun k => (hs k).1, ?_, hv, fun _ hk => absurd (show [(9 : ZMod 97)] = [2] from hk.1) (by decide)⟩
    simp [Gm17Seen.prove, e1, e2, e3]
  · rw [Finset.card_univ, Fintype.card_prod, Fintype.card_prod, Fintype.card_fun, Fintype.card_fun, ZMod.card,
      Fintype.card_fin, Fintype.card_fin]
    norm_num

end Examples

end Crypto3Zk
