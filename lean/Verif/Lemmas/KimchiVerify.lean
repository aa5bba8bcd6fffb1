import Verif.Lemmas.KimchiCoefficients
import Verif.Spec.KimchiPedersen

/-!
# What the verifier's final sum is
-/

set_option linter.unusedSectionVars false

namespace Crypto3Zk

variable {F : Type} [Field F] {G : Type} [AddCommGroup G] [Module F G] [DecidableEq G] {S : Type}

/-- the claims with the bounds as passed to `combined_inner_product` -/
def ipaClaims (es : List (IpaEval F G)) : List (IpaEval F G × Int) :=
  es.map fun e => (e, if e.commit.shifted ≠ 0 then e.bound else -1)

def IpaAcc.total (a : IpaAcc F G) : G := lin a.scalars a.points

theorem ipaChallenges_length (sp : IpaSponge F G S) : ∀ (lr : List (G × G)) (st : S),
    (ipaChallenges sp lr st).1.length = lr.length
  | [], st => rfl
  | (l, r) :: lr, st => by
    simp only [ipaChallenges, List.length_cons]
    rw [ipaChallenges_length sp lr]

theorem IpaBatch.chals_length (sp : IpaSponge F G S) (b : IpaBatch F G S) (cip : F) :
    (b.chals sp cip).length = b.opening.lr.length := ipaChallenges_length sp _ _

private theorem foldl_comms (xi c : F) : ∀ (us : List G) (P : List G) (T : List F) (x : F),
    ∃ T', us.foldl (fun (s : List G × List F × F) g => (s.1 ++ [g], s.2.1 ++ [c * s.2.2], s.2.2 * xi))
      (P, T, x) = (P ++ us, T ++ T', x * xi ^ us.length) ∧ T'.length = us.length ∧
      lin T' us = (c * x) • powSum xi us
  | [], P, T, x => ⟨[], by simp, rfl, by simp [powSum]⟩
  | u :: us, P, T, x => by
    obtain ⟨T', h1, h2, h3⟩ := foldl_comms xi c us (P ++ [u]) (T ++ [c * x]) (x * xi)
    refine ⟨(c * x) :: T', ?_, by simp [h2], ?_⟩
    · rw [List.foldl_cons, h1]
      simp [pow_succ']
      ring
    · rw [lin_cons, h3, powSum]
      module

theorem ipaCommitTerms_eq (xi c : F) : ∀ (es : List (IpaEval F G)) (P : List G) (T : List F) (x : F),
    ∃ T' y, ipaCommitTerms xi c es (P, T, x) = (P ++ es.flatMap IpaEval.comms, T ++ T', y) ∧
      T'.length = (es.flatMap IpaEval.comms).length ∧
      lin T' (es.flatMap IpaEval.comms) = (c * x) • powSum xi (es.flatMap IpaEval.comms)
  | [], P, T, x => ⟨[], x, by simp [ipaCommitTerms], by simp, by simp [powSum]⟩
  | e :: es, P, T, x => by
    obtain ⟨T1, h1, h2, h3⟩ := foldl_comms xi c e.commit.unshifted P T x
    rw [ipaCommitTerms, h1, List.flatMap_cons, IpaEval.comms]
    dsimp only
    split
    · obtain ⟨T2, y, g1, g2, g3⟩ := ipaCommitTerms_eq xi c es (P ++ e.commit.unshifted ++ [e.commit.shifted])
        (T ++ T1 ++ [c * (x * xi ^ e.commit.unshifted.length)]) (x * xi ^ e.commit.unshifted.length * xi)
      refine ⟨T1 ++ [c * (x * xi ^ e.commit.unshifted.length)] ++ T2, y, ?_, ?_, ?_⟩
      · rw [g1]
        simp
      · simp [h2, g2]
      · rw [lin_append' _ _ _ _ (by simp [h2]), lin_append' _ _ _ _ h2, h3, g3, powSum_append,
          powSum_append, List.length_append, List.length_singleton, pow_succ]
        simp only [lin_cons, lin_nil_left, powSum]
        module
    · obtain ⟨T2, y, g1, g2, g3⟩ := ipaCommitTerms_eq xi c es (P ++ e.commit.unshifted)
        (T ++ T1) (x * xi ^ e.commit.unshifted.length)
      refine ⟨T1 ++ T2, y, ?_, ?_, ?_⟩
      · rw [g1]
        simp
      · simp [h2, g2]
      · rw [List.append_nil, lin_append' _ _ _ _ h2, h3, g3, powSum_append]
        module

private theorem foldl_lr (rc : F) : ∀ (lr : List (G × G)) (cs : List F) (P : List G) (T : List F),
    ∃ P' T', (List.zip lr cs).foldl (fun (s : List G × List F) x =>
      (s.1 ++ [x.1.1, x.1.2], s.2 ++ [rc * x.2⁻¹, rc * x.2])) (P, T) = (P ++ P', T ++ T') ∧
      T'.length = P'.length ∧ lin T' P' = rc • lrSum lr cs
  | [], cs, P, T => ⟨[], [], by simp, rfl, by cases cs <;> simp [lrSum]⟩
  | (l, r) :: lr, [], P, T => ⟨[], [], by simp, rfl, by simp [lrSum]⟩
  | (l, r) :: lr, c :: cs, P, T => by
    obtain ⟨P', T', h1, h2, h3⟩ := foldl_lr rc lr cs (P ++ [l, r]) (T ++ [rc * c⁻¹, rc * c])
    refine ⟨l :: r :: P', rc * c⁻¹ :: rc * c :: T', ?_, by simp [h2], ?_⟩
    · rw [List.zip_cons_cons, List.foldl_cons, h1]
      simp
    · rw [lin_cons, lin_cons, h3, lrSum]
      module

theorem lin_modify_zero (x : F) : ∀ (xs : List F) (m : G) (ms : List G), xs ≠ [] →
    lin (xs.modify 0 (· - x)) (m :: ms) = lin xs (m :: ms) - x • m
  | [], m, ms, h => absurd rfl h
  | y :: xs, m, ms, _ => by
    simp only [List.modify_zero_cons, lin_cons]
    module

/-- what one batch adds to the sum -/
theorem ipaVerifyStep_spec (sp : IpaSponge F G S) (n : Nat) (rand sgRand : F) (acc : IpaAcc F G)
    (b : IpaBatch F G S) (h : G) (g rest : List G) (cip : F) (hc : b.cip n = some cip)
    (hp : acc.points = h :: g ++ rest) (hl : acc.scalars.length = acc.points.length)
    (hs : 2 ^ b.opening.lr.length ≤ g.length) :
    ∃ acc', ipaVerifyStep sp n rand sgRand acc b = some acc' ∧
      (∃ rest', acc'.points = h :: g ++ rest') ∧ acc'.scalars.length = acc'.points.length ∧
      acc'.randI = acc.randI * rand ∧ acc'.sgRandI = acc.sgRandI * sgRand ∧
      acc'.total = acc.total + acc.randI • b.defect sp h cip + acc.sgRandI • b.sgDefect sp g cip := by
  obtain ⟨P, T, rI, sI⟩ := acc
  simp only at hp hl
  obtain ⟨⟨cip', y⟩, hcip, rfl⟩ := Option.map_eq_some_iff.mp hc
  dsimp only at hc ⊢
  rw [ipaVerifyStep]
  have hes : (b.evaluation.map fun e => (e, if e.commit.shifted ≠ 0 then e.bound else -1)) =
    ipaClaims b.evaluation := rfl
  dsimp only
  rw [hcip]
  have hch : (ipaChallenges sp b.opening.lr (sp.point (sp.absorbFr b.sponge cip')).2).1 =
    b.chals sp cip' := rfl
  have hcc : (sp.challenge (sp.absorbG (ipaChallenges sp b.opening.lr
    (sp.point (sp.absorbFr b.sponge cip')).2).2 b.opening.delta)).1 = b.c sp cip' := rfl
  have hu : (sp.point (sp.absorbFr b.sponge cip')).1 = (b.u sp cip').1 := rfl
  simp only [Option.bind_eq_bind, Option.bind_some, hch, hcc, hu, foldl_powSum, bPolyCoefficients_eq]
  generalize hcs : b.chals sp cip' = cs
  generalize hcv : b.c sp cip' = c
  have hlen : (coefRec cs).length ≤ g.length := by
    rw [coefRec_length, ← hcs, IpaBatch.chals_length]
    exact hs
  have hTl : (coefRec cs).length + 1 ≤ T.length := by
    rw [hl, hp]
    simp
    omega
  rw [guard, if_pos (by simp; omega)]
  simp only [Option.pure_def, Option.bind_some]
  generalize hT1 : (addInto (T ++ [-rI * b.opening.z1 - sI]) 1 sI (coefRec cs)).modify 0
    (· - rI * b.opening.z2) = T1
  have hT1l : T1.length = T.length + 1 := by
    rw [← hT1, List.length_modify, addInto_length]
    simp
  have hT1v : lin T1 (P ++ [b.opening.sg]) = lin T P + (-rI * b.opening.z1 - sI) • b.opening.sg +
      sI • lin (coefRec cs) g - (rI * b.opening.z2) • h := by
    have hPl : P.length = T.length := hl.symm
    have hne : addInto (T ++ [-rI * b.opening.z1 - sI]) 1 sI (coefRec cs) ≠ [] := by
      intro h0
      have := addInto_length (T ++ [-rI * b.opening.z1 - sI]) 1 sI (coefRec cs)
      rw [h0] at this
      simp at this
    rw [← hT1, hp, List.cons_append, List.cons_append, lin_modify_zero _ _ _ _ hne]
    rw [lin_addInto _ _ _ _ _ (by simp; omega) (by
      rw [hp] at hPl
      simp at hPl ⊢
      omega), List.drop_succ_cons, List.drop_zero, List.append_assoc, lin_right_append _ _ _ hlen]
    have h2 : h :: (g ++ (rest ++ [b.opening.sg])) = P ++ [b.opening.sg] := by simp [hp]
    rw [h2, lin_append' _ _ _ _ hl, lin_cons, lin_nil_left, add_zero, hp]
    simp
  clear hT1
  obtain ⟨P2, T2, h1, h2, h3⟩ := foldl_lr (c * rI) b.opening.lr cs (P ++ [b.opening.sg] ++ [(b.u sp cip').1])
    (T1 ++ [-rI * b.opening.z1 * (0 + 1 * powSum b.r (b.points.map (bPoly cs)))])
  rw [h1]
  obtain ⟨T3, y3, g1, g2, g3⟩ := ipaCommitTerms_eq b.xi (c * rI) b.evaluation
    (P ++ [b.opening.sg] ++ [(b.u sp cip').1] ++ P2)
    (T1 ++ [-rI * b.opening.z1 * (0 + 1 * powSum b.r (b.points.map (bPoly cs)))] ++ T2) 1
  dsimp only
  rw [g1]
  refine ⟨_, rfl, ⟨rest ++ [b.opening.sg] ++ [(b.u sp cip').1] ++ P2 ++
    b.evaluation.flatMap IpaEval.comms ++ [(b.u sp cip').1, b.opening.delta], by simp [hp]⟩, ?_, rfl, rfl, ?_⟩
  · simp [hT1l, h2, g2, hl]
    omega
  · rw [IpaAcc.total, IpaAcc.total]
    dsimp only
    rw [lin_append' _ _ _ _ (by simp [hT1l, h2, g2, hl]; omega), lin_append' _ _ _ _ (by simp [hT1l, h2, hl]; omega),
      lin_append' _ _ _ _ (by simp [hT1l, hl]), lin_append' _ _ _ _ (by simp [hT1l, hl]), hT1v, h3, g3]
    simp only [lin_cons, lin_nil_left, IpaBatch.defect, IpaBatch.sgDefect, hcs, hcv]
    module

theorem IpaParams.padded_length (prm : IpaParams G) :
    prm.padded.length = 2 ^ Nat.clog 2 prm.g.length := by
  have := Nat.le_pow_clog (b := 2) (by omega) prm.g.length
  simp only [IpaParams.padded, List.length_append, List.length_replicate]
  omega

private theorem verify_foldlM (sp : IpaSponge F G S) (prm : IpaParams G) (rand sgRand : F) :
    ∀ (bs : List (IpaBatch F G S)) (acc : IpaAcc F G) (rest : List G),
      (∀ b ∈ bs, b.Readable prm) → acc.points = prm.h :: prm.padded ++ rest →
      acc.scalars.length = acc.points.length →
      ∃ acc', bs.foldlM (ipaVerifyStep sp prm.g.length rand sgRand) acc = some acc' ∧
        acc'.scalars.length = acc'.points.length ∧
        acc'.total = acc.total + acc.randI • powSum rand (bs.map (IpaBatch.defect' sp prm)) +
          acc.sgRandI • powSum sgRand (bs.map (IpaBatch.sgDefect' sp prm))
  | [], acc, _, _, _, hl => ⟨acc, rfl, hl, by simp [powSum]⟩
  | b :: bs, acc, rest, hr, hp, hl => by
    obtain ⟨h1, h2⟩ := hr b (by simp)
    obtain ⟨cip, hcip⟩ := Option.isSome_iff_exists.mp h1
    obtain ⟨acc1, e1, ⟨rest1, e2⟩, e3, e4, e5, e6⟩ := ipaVerifyStep_spec sp prm.g.length rand sgRand acc b
      prm.h prm.padded rest cip hcip hp hl (by
        rw [IpaParams.padded_length]
        exact Nat.pow_le_pow_right (by omega) h2)
    obtain ⟨acc2, f1, f2, f3⟩ := verify_foldlM sp prm rand sgRand bs acc1 rest1
      (fun b hb => hr b (List.mem_cons_of_mem _ hb)) e2 e3
    refine ⟨acc2, by rw [List.foldlM_cons, e1]; exact f1, f2, ?_⟩
    rw [f3, e4, e5, e6, List.map_cons, List.map_cons, powSum, powSum, IpaBatch.defect', IpaBatch.sgDefect',
      hcip]
    simp only [Option.getD_some]
    module

/-- the verdict: a sum of the defects of the batches, the first two with coefficient one -/
theorem ipaVerify_eq (sp : IpaSponge F G S) (prm : IpaParams G) (rand sgRand : F)
    (bs : List (IpaBatch F G S)) (hr : ∀ b ∈ bs, b.Readable prm) :
    ipaVerify sp prm rand sgRand bs = some (decide (powSum rand (bs.map (IpaBatch.defect' sp prm)) +
      powSum sgRand (bs.map (IpaBatch.sgDefect' sp prm)) = 0)) := by
  obtain ⟨acc, h1, h2, h3⟩ := verify_foldlM sp prm rand sgRand bs
    ⟨prm.h :: prm.g ++ List.replicate (2 ^ Nat.clog 2 prm.g.length - prm.g.length) 0,
      List.replicate (2 ^ Nat.clog 2 prm.g.length + 1) 0, 1, 1⟩ [] hr (by simp [IpaParams.padded]) (by
        have := prm.padded_length
        simp only [IpaParams.padded, List.length_append, List.length_replicate] at this
        simp only [List.cons_append, List.length_cons, List.length_append, List.length_replicate]
        omega)
  rw [ipaVerify, h1]
  simp only [Option.bind_eq_bind, Option.bind_some, multiexp_lin _ _ h2.symm, Option.pure_def]
  have h4 : lin acc.scalars acc.points = acc.total := rfl
  rw [h4, h3, IpaAcc.total, lin_zero_left, zero_add, one_smul, one_smul]

/-- a batch that is not readable stops the verification -/
theorem ipaVerify_none_of_cip (sp : IpaSponge F G S) (prm : IpaParams G) (rand sgRand : F)
    (bs : List (IpaBatch F G S)) (b : IpaBatch F G S) (hb : b ∈ bs) (h : b.cip prm.g.length = none) :
    ipaVerify sp prm rand sgRand bs = none := by
  have hstep : ∀ acc, ipaVerifyStep sp prm.g.length rand sgRand acc b = none := by
    intro acc
    have : ipaCombined b.points b.xi b.r prm.g.length (ipaClaims b.evaluation) (0, 1) = none := by
      simpa [IpaBatch.cip, ipaClaims] using h
    rw [ipaVerifyStep]
    have hes : (b.evaluation.map fun e => (e, if e.commit.shifted ≠ 0 then e.bound else -1)) =
      ipaClaims b.evaluation := rfl
    dsimp only
    rw [hes, this]
    rfl
  have hf : ∀ acc, bs.foldlM (ipaVerifyStep sp prm.g.length rand sgRand) acc = none := by
    induction bs with
    | nil => simp at hb
    | cons b' bs ih =>
      intro acc
      rw [List.foldlM_cons]
      rcases List.mem_cons.mp hb with rfl | hb'
      · rw [hstep]
        rfl
      · cases ipaVerifyStep sp prm.g.length rand sgRand acc b' with
        | none => rfl
        | some acc' => exact ih hb' acc'
  rw [ipaVerify, hf]
  rfl

end Crypto3Zk
