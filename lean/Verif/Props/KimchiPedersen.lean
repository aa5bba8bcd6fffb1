import Verif.Lemmas.KimchiSound
import Verif.Props.Groth16Aggregate
import Mathlib.Data.Fintype.Prod
import Mathlib.Data.Fintype.Card

/-!
# C75, C76: openings of the inner-product commitment
-/

set_option linter.unusedSectionVars false

namespace Crypto3Zk

variable {F : Type} [Field F] {G : Type} [AddCommGroup G] [Module F G] [DecidableEq F] [DecidableEq G]
  {S : Type}

/-! ## C75: honest openings -/

/-- C75: on honest claims `proof_eval` succeeds. -/
theorem C75_prover_succeeds (sp : IpaSponge F G S) (prm : IpaParams G) (es : List (IpaEval F G))
    (plms : List (IpaPoly F)) (points : List F) (xi r : F) (rnd : List (F × F)) (d rDelta : F) (st : S)
    (hp : points ≠ []) (h : List.Forall₂ (HonestClaim prm points) es plms)
    (hrnd : Nat.clog 2 prm.g.length ≤ rnd.length) :
    ∃ o, ipaProve sp prm plms points xi r rnd d rDelta st = some o ∧
      o.lr.length = Nat.clog 2 prm.g.length := by
  obtain ⟨o, h1, h2, -⟩ := ipaProve_spec sp prm es plms points xi r rnd d rDelta st hp h hrnd
  exact ⟨o, h1, h2⟩

/-- C75: any number of honest batches is accepted, whatever random elements the prover and the verifier
use, unless a challenge is zero. -/
theorem C75_honest_openings_are_accepted_partial (sp : IpaSponge F G S) (prm : IpaParams G)
    (batches : List (IpaBatch F G S)) (h : ∀ b ∈ batches, HonestBatch sp prm b)
    (hc : ∀ b ∈ batches, ∀ v, b.cip prm.g.length = some v → ∀ c ∈ b.chals sp v, c ≠ 0)
    (rand sgRand : F) : ipaVerify sp prm rand sgRand batches = some true := by
  have key : ∀ b ∈ batches, b.Readable prm ∧ b.defect' sp prm = 0 ∧ b.sgDefect' sp prm = 0 := by
    intro b hb
    obtain ⟨hp, plms, rnd, d, rDelta, h1, h2, h3⟩ := h b hb
    obtain ⟨o, e1, e2, cip, e3, e4, e5⟩ := ipaProve_spec sp prm b.evaluation plms b.points b.xi b.r rnd d
      rDelta b.sponge hp h1 h2
    obtain rfl := Option.some.inj (h3.symm.trans e1)
    have hcb := hc b hb cip e3
    have e3' : b.cip prm.g.length = some cip := e3
    refine ⟨⟨by rw [e3']; rfl, e2.le⟩, ?_, ?_⟩
    · rw [IpaBatch.defect', e3']
      exact e5 hcb
    · rw [IpaBatch.sgDefect', e3']
      exact e4
  rw [ipaVerify_eq sp prm rand sgRand batches fun b hb => (key b hb).1,
    powSum_zeros _ _ (fun v hv => by
      obtain ⟨b, hb, rfl⟩ := List.mem_map.mp hv
      exact (key b hb).2.1), powSum_zeros _ _ (fun v hv => by
      obtain ⟨b, hb, rfl⟩ := List.mem_map.mp hv
      exact (key b hb).2.2)]
  simp

/-- C75: `b_poly` is the product `Π (1 + cᵢ x^(2^(k-1-i)))`, and `b_poly_coefficents` are its
coefficients. -/
theorem C75_challenge_polynomial (chals : List F) (x : F) :
    bPoly chals x = ((List.range chals.length).map fun i =>
      1 + chals.getD i 0 * x ^ 2 ^ (chals.length - 1 - i)).prod ∧
    (bPolyCoefficients chals).length = 2 ^ chals.length ∧
    bPoly chals x = ∑ i ∈ Finset.range (2 ^ chals.length), (bPolyCoefficients chals).getD i 0 * x ^ i := by
  rw [bPolyCoefficients_eq]
  refine ⟨bPoly_eq chals x, coefRec_length chals, ?_⟩
  rw [← hornerEval_sum _ _ _ (coefRec_length chals).le, horner_coefRec]

/-- C75: committing with a degree bound is only defined if the polynomial has exactly as many
coefficients as the bound, or ends before the last incomplete chunk that the bound allows. -/
theorem C75_bounded_commitment_undefined (prm : IpaParams G) (poly : List F) (bound : Int)
    (ws : Nat → F) (w : F) (hb : 0 ≤ bound) (hz : ¬ poly.all (· = 0))
    (hs : bound.toNat - bound.toNat % prm.g.length < poly.length) (hne : poly.length ≠ bound.toNat) :
    ipaCommit prm poly bound ws w = none := by
  rw [ipaCommit]
  simp only [Option.bind_eq_bind, if_pos hb]
  rw [if_pos ⟨hz, hs⟩, multiexp, if_neg (by
    simp only [List.length_drop]
    intro hc
    have := Nat.mod_le bound.toNat prm.g.length
    rcases Nat.eq_zero_or_pos prm.g.length with h0 | h0
    · rw [h0] at hs hc this
      simp at hs hc
      rw [hc] at hs
      exact absurd hs (by simp)
    · have := Nat.mod_lt bound.toNat h0
      omega)]
  cases (guard (0 < prm.g.length ∨ poly = []) : Option Unit) with
  | none => rfl
  | some u =>
    simp only [Option.bind_some]
    cases (ipaChunks prm.g.length poly).mapM fun c => multiexp (prm.g.take c.length) c <;> rfl

/-! ## C76: accepted openings -/

/-- C76, the verdict: the sum over the batches of `randⁱ` times the equation of the argument plus
`sgRandⁱ` times the equation for `sg`. -/
theorem C76_verdict (sp : IpaSponge F G S) (prm : IpaParams G) (rand sgRand : F)
    (batches : List (IpaBatch F G S)) (hr : ∀ b ∈ batches, b.Readable prm) :
    ipaVerify sp prm rand sgRand batches =
      some (decide (powSum rand (batches.map (IpaBatch.defect' sp prm)) +
        powSum sgRand (batches.map (IpaBatch.sgDefect' sp prm)) = 0)) :=
  ipaVerify_eq sp prm rand sgRand batches hr

/-- C76 fails: every claim can be opened. For any commitments, points and claimed evaluations there is
an opening, of the expected length, that is accepted whatever random elements the verifier uses. The
two random combinations start with the same coefficient, and `sg` does not enter the challenges. -/
theorem C76_any_claim_can_be_opened (sp : IpaSponge F G S) (prm : IpaParams G) (st : S)
    (es : List (IpaEval F G)) (points : List F) (xi r : F)
    (hr : (ipaCombined points xi r prm.g.length
      (es.map fun e => (e, if e.commit.shifted ≠ 0 then e.bound else -1)) (0, 1)).isSome) :
    ∃ o : IpaProof F G, o.lr.length = Nat.clog 2 prm.g.length ∧
      ∀ rand sgRand, ipaVerify sp prm rand sgRand [⟨st, es, points, xi, r, o⟩] = some true := by
  obtain ⟨⟨cip, y⟩, hy⟩ := Option.isSome_iff_exists.mp hr
  have hcip : ∀ o, IpaBatch.cip prm.g.length ⟨st, es, points, xi, r, o⟩ = some cip := fun o => by
    rw [IpaBatch.cip]
    dsimp only
    rw [hy]
    rfl
  let o0 : IpaProof F G := ⟨List.replicate (Nat.clog 2 prm.g.length) (0, 0), 0, 0, 0, 0⟩
  let b0 : IpaBatch F G S := ⟨st, es, points, xi, r, o0⟩
  let sg : G := b0.defect sp prm.h cip + b0.sgDefect sp prm.padded cip
  refine ⟨⟨List.replicate (Nat.clog 2 prm.g.length) (0, 0), 0, 0, 0, sg⟩, by simp, fun rand sgRand => ?_⟩
  rw [ipaVerify_eq _ _ _ _ _ (by
    intro b hb
    rw [List.mem_singleton.mp hb]
    exact ⟨by rw [hcip]; rfl, by simp⟩)]
  simp only [List.map_cons, List.map_nil, powSum, smul_zero, add_zero, Option.some.injEq, decide_eq_true_iff]
  rw [IpaBatch.defect', IpaBatch.sgDefect', hcip, Option.getD_some]
  have h1 : IpaBatch.defect sp prm.h ⟨st, es, points, xi, r,
      ⟨List.replicate (Nat.clog 2 prm.g.length) (0, 0), 0, 0, 0, sg⟩⟩ cip = b0.defect sp prm.h cip := by
    simp only [IpaBatch.defect, b0, o0]
    simp only [zero_smul]
    rfl
  have h2 : IpaBatch.sgDefect sp prm.padded ⟨st, es, points, xi, r,
      ⟨List.replicate (Nat.clog 2 prm.g.length) (0, 0), 0, 0, 0, sg⟩⟩ cip =
      b0.sgDefect sp prm.padded cip - sg := by
    simp only [IpaBatch.sgDefect, b0, o0]
    rw [sub_zero]
    rfl
  rw [h1, h2]
  simp only [sg]
  abel

theorem powSum_eq_sum (x : F) : ∀ l : List G, powSum x l = ∑ i : Fin l.length, x ^ (i : Nat) • l[i]
  | [] => by simp [powSum]
  | v :: l => by
    rw [powSum, powSum_eq_sum x l, Finset.smul_sum]
    simp only [List.length_cons]
    rw [Fin.sum_univ_succ]
    simp only [Fin.val_zero, pow_zero, one_smul, Fin.val_succ, pow_succ, Fin.getElem_fin,
      List.getElem_cons_zero, List.getElem_cons_succ]
    congr 1
    apply Finset.sum_congr rfl
    intro i _
    rw [smul_smul, mul_comm]

private theorem powSum_offset_card [Fintype F] (l : List G) (K : G) (i : Nat) (hi : i < l.length) (h0 : 0 < i)
    (h : l[i] ≠ 0) : (Finset.univ.filter fun x : F => powSum x l + K = 0).card ≤ l.length - 1 := by
  cases l with
  | nil => simp at hi
  | cons v l =>
    obtain ⟨j, rfl⟩ := Nat.exists_eq_succ_of_ne_zero (Nat.pos_iff_ne_zero.mp h0)
    have hj : j < l.length := by simpa using hi
    obtain ⟨T, hT, hin⟩ := powerSum_roots (F := F) ((v + K) :: l).length (fun i => ((v + K) :: l)[i])
      ⟨j + 1, by simpa using hi⟩ (by simpa using h)
    refine le_trans (Finset.card_le_card (t := T) ?_) (by simpa using hT)
    intro x hx
    have hx' := (Finset.mem_filter.mp hx).2
    apply hin
    rw [← powSum_eq_sum, powSum, ← hx', powSum]
    abel

/-- C76, partial: for all batches after the first one both equations are checked separately, up to a
small probability. If one of them fails, or the two equations of the first batch do not add up, then at
most `(m - 1) |F|` of the `|F|²` choices of the verifier's random elements accept, for `m` batches.
What is missing is that the first batch is only checked for the sum of its two equations. -/
theorem C76_later_batches_partial [Fintype F] (sp : IpaSponge F G S) (prm : IpaParams G)
    (batches : List (IpaBatch F G S)) (hr : ∀ b ∈ batches, b.Readable prm)
    (h : (∃ b, batches.head? = some b ∧ b.defect' sp prm + b.sgDefect' sp prm ≠ 0) ∨
      ∃ b ∈ batches.tail, b.defect' sp prm ≠ 0 ∨ b.sgDefect' sp prm ≠ 0) :
    (Finset.univ.filter fun x : F × F => ipaVerify sp prm x.1 x.2 batches = some true).card ≤
      (batches.length - 1) * Fintype.card F := by
  have heq : ∀ x : F × F, ipaVerify sp prm x.1 x.2 batches = some true ↔
      powSum x.1 (batches.map (IpaBatch.defect' sp prm)) +
        powSum x.2 (batches.map (IpaBatch.sgDefect' sp prm)) = 0 := by
    intro x
    rw [ipaVerify_eq sp prm x.1 x.2 batches hr]
    simp
  simp only [heq]
  by_cases htl : ∃ b ∈ batches.tail, b.defect' sp prm ≠ 0 ∨ b.sgDefect' sp prm ≠ 0
  swap
  · obtain ⟨b, hb, hne⟩ := h.resolve_right htl
    obtain ⟨rest, rfl⟩ : ∃ rest, batches = b :: rest := List.head?_eq_some_iff.mp hb
    push Not at htl
    rw [List.tail_cons] at htl
    have h1 : ∀ x : F × F, ¬ (powSum x.1 ((b :: rest).map (IpaBatch.defect' sp prm)) +
        powSum x.2 ((b :: rest).map (IpaBatch.sgDefect' sp prm)) = 0) := by
      intro x hx
      rw [List.map_cons, List.map_cons, powSum, powSum, powSum_zeros _ _ (fun v hv => by
          obtain ⟨b', hb', rfl⟩ := List.mem_map.mp hv
          exact (htl b' hb').1), powSum_zeros _ _ (fun v hv => by
          obtain ⟨b', hb', rfl⟩ := List.mem_map.mp hv
          exact (htl b' hb').2), smul_zero, smul_zero, add_zero, add_zero] at hx
      exact hne hx
    rw [Finset.filter_false_of_mem fun x _ => h1 x]
    simp
  · obtain ⟨b, hb, hne⟩ := htl
    obtain ⟨i, hi, rfl⟩ := List.getElem_of_mem hb
    have hi' : i + 1 < batches.length := by
      rw [List.length_tail] at hi
      omega
    have hb' : batches.tail[i] = batches[i + 1] := by simp
    rw [hb'] at hne
    rcases hne with hne | hne
    · -- fix the second random element
      have : (Finset.univ.filter fun x : F × F =>
          powSum x.1 (batches.map (IpaBatch.defect' sp prm)) +
          powSum x.2 (batches.map (IpaBatch.sgDefect' sp prm)) = 0) ⊆
          Finset.univ.biUnion fun y : F => (Finset.univ.filter fun x : F =>
            powSum x (batches.map (IpaBatch.defect' sp prm)) +
            powSum y (batches.map (IpaBatch.sgDefect' sp prm)) = 0).image fun x => (x, y) := by
        rintro ⟨x, y⟩ hx
        have := (Finset.mem_filter.mp hx).2
        simp only [Finset.mem_biUnion, Finset.mem_univ, true_and, Finset.mem_image, Finset.mem_filter]
        exact ⟨y, x, this, rfl⟩
      refine le_trans (Finset.card_le_card this) (le_trans Finset.card_biUnion_le ?_)
      refine le_trans (Finset.sum_le_card_nsmul _ _ (batches.length - 1) ?_) ?_
      · intro y _
        refine le_trans Finset.card_image_le ?_
        have := powSum_offset_card (F := F) (batches.map (IpaBatch.defect' sp prm))
          (powSum y (batches.map (IpaBatch.sgDefect' sp prm))) (i + 1) (by simpa using hi') (by omega)
          (by simpa using hne)
        simpa using this
      · rw [Finset.card_univ, smul_eq_mul, mul_comm]
    · have : (Finset.univ.filter fun x : F × F =>
          powSum x.1 (batches.map (IpaBatch.defect' sp prm)) +
          powSum x.2 (batches.map (IpaBatch.sgDefect' sp prm)) = 0) ⊆
          Finset.univ.biUnion fun y : F => (Finset.univ.filter fun x : F =>
            powSum x (batches.map (IpaBatch.sgDefect' sp prm)) +
            powSum y (batches.map (IpaBatch.defect' sp prm)) = 0).image fun x => (y, x) := by
        rintro ⟨x, y⟩ hx
        have := (Finset.mem_filter.mp hx).2
        simp only [Finset.mem_biUnion, Finset.mem_univ, true_and, Finset.mem_image, Finset.mem_filter]
        exact ⟨x, y, by rw [add_comm]; exact this, rfl⟩
      refine le_trans (Finset.card_le_card this) (le_trans Finset.card_biUnion_le ?_)
      refine le_trans (Finset.sum_le_card_nsmul _ _ (batches.length - 1) ?_) ?_
      · intro y _
        refine le_trans Finset.card_image_le ?_
        have := powSum_offset_card (F := F) (batches.map (IpaBatch.sgDefect' sp prm))
          (powSum y (batches.map (IpaBatch.defect' sp prm))) (i + 1) (by simpa using hi') (by omega)
          (by simpa using hne)
        simpa using this
      · rw [Finset.card_univ, smul_eq_mul, mul_comm]

/-- C76, partial: where both equations hold, claims are binding. Let the combined commitment be one to
the polynomial `a`, let there be `2 ^ k` generators with no linear relation among them, `u` and `h`, and
a tree of transcripts, four challenges per round and two at the end, all satisfying both equations. Then
the value the verifier computes from the claimed evaluations is the combination of the values of `a`. -/
theorem C76_evaluation_binding_partial (prm : IpaParams G) (es : List (IpaEval F G)) (points : List F)
    (xi r : F) (u : G) (k : Nat) (hk : prm.g.length = 2 ^ k) (hnr : NoRelation F prm.g u prm.h)
    (t : IpaTree F G k) (hd : t.Distinct)
    (ht : t.AllPaths (AcceptedRun prm es points xi r u))
    (a : List F) (ρ : F) (ha : a.length = prm.g.length)
    (hP : powSum xi (es.flatMap IpaEval.comms) = lin a prm.g + ρ • prm.h) (cip y : F)
    (hcip : ipaCombined points xi r prm.g.length
      (es.map fun e => (e, if e.commit.shifted ≠ 0 then e.bound else -1)) (0, 1) = some (cip, y)) :
    cip = powSum r (points.map (hornerEval a)) := by
  have hpad : prm.padded = prm.g := by
    rw [IpaParams.padded, hk, Nat.clog_pow 2 k (by omega), Nat.sub_self]
    simp
  obtain ⟨f, ρ', hf⟩ := ipa_extract u prm.h t prm.g (ipaB (2 ^ k) r points)
    (powSum xi (es.flatMap IpaEval.comms) + cip • u) hk (ipaB_length _ _ _) hnr hd
    (IpaTree.AllPaths.imp _ ht (fun lr cs d c z1 z2 hl hq => by
      obtain ⟨S', sp, b, cip', rfl, rfl, rfl, rfl, h1, rfl, rfl, rfl, rfl, rfl, rfl, rfl, h2, h3⟩ := hq
      have hc : cip' = cip := by
        rw [IpaBatch.cip, hcip] at h1
        exact (Option.some.inj h1).symm
      subst hc
      rw [IpaBatch.sgDefect, hpad, sub_eq_zero] at h3
      rw [IpaBatch.defect, sub_sub, sub_eq_zero] at h2
      rw [h2, ← hl, lin_coefRec_ipaB, h3]))
  rw [hP, linF_lin _ _ ha] at hf
  have h0 := hnr (fun j => f j - a.getD j 0) (linF (2 ^ k) f (ipaB (2 ^ k) r points) - cip) (ρ' - ρ) (by
    have h1 : linF prm.g.length (fun j => f j - a.getD j 0) prm.g +
        (linF (2 ^ k) f (ipaB (2 ^ k) r points) - cip) • u + (ρ' - ρ) • prm.h = 0 := by
      rw [linF_sub]
      rw [← sub_eq_zero] at hf
      rw [← neg_eq_zero, ← hf, hk]
      module
    exact h1)
  have h1 := sub_eq_zero.mp h0.2.1
  have hb := ipaB_length (2 ^ k) r points
  rw [← h1, linF_congr _ f (fun j => a.getD j 0) _ (fun j hj => sub_eq_zero.mp (h0.1 j (by omega)))]
  have h2 := linF_lin a (ipaB (2 ^ k) r points) (by omega)
  rw [hb] at h2
  rw [← h2]
  have h3 := lin_ipaB (2 ^ k) r points a 0 (by omega)
  rw [List.drop_zero] at h3
  rw [h3]
  simp

/-- C76: a proof with more rounds than expected makes the verifier write outside its vector, for at
least two generators. -/
theorem C76_too_many_rounds (sp : IpaSponge F G S) (prm : IpaParams G) (rand sgRand : F)
    (b : IpaBatch F G S) (rest : List (IpaBatch F G S)) (hn : 2 ≤ prm.g.length)
    (hl : Nat.clog 2 prm.g.length < b.opening.lr.length) :
    ipaVerify sp prm rand sgRand (b :: rest) = none := by
  have hstep : ∀ acc : IpaAcc F G, acc.scalars.length = 2 ^ Nat.clog 2 prm.g.length + 1 →
      ipaVerifyStep sp prm.g.length rand sgRand acc b = none := by
    intro acc hacc
    rw [ipaVerifyStep]
    dsimp only
    cases hc : ipaCombined b.points b.xi b.r prm.g.length
        (b.evaluation.map fun e => (e, if e.commit.shifted ≠ 0 then e.bound else -1)) (0, 1) with
    | none => rfl
    | some cy =>
      obtain ⟨cip, y⟩ := cy
      simp only [Option.bind_eq_bind, Option.bind_some, bPolyCoefficients_eq]
      rw [guard, if_neg]
      · rfl
      · rw [coefRec_length, ipaChallenges_length, List.length_append, hacc]
        have h1 : 2 ^ (Nat.clog 2 prm.g.length + 1) ≤ 2 ^ b.opening.lr.length :=
          Nat.pow_le_pow_right (by omega) hl
        have h2 := Nat.le_pow_clog (b := 2) (by omega) prm.g.length
        rw [pow_succ] at h1
        simp only [List.length_singleton]
        omega
  rw [ipaVerify, List.foldlM_cons, hstep _ (by simp)]
  rfl

end Crypto3Zk
