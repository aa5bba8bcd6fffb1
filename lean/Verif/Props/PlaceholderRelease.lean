import Verif.Lemmas.PlaceholderAnyProver
import Verif.Lemmas.PlaceholderSoundParts
import Verif.Props.PlaceholderPublic

/-!
# C66 and C38 without assertions

The verifier compares the challenge stored in the proof with the one it draws in an assertion only
(verifier.hpp:359). In a build without assertions, the stored one is used for the first Lagrange polynomial and
for the public inputs, and is chosen by the prover.
-/

set_option linter.unusedSectionVars false

namespace Crypto3Zk

open Polynomial

variable {F : Type} [Field F] [DecidableEq F]
variable {L : FftLib F} {A n fuel : Nat} {d : TableDesc} {c : Circuit F} {order : List PlonkVar}
  {t : PlonkTable F} {delta : F} {mqc : Nat}

theorem dfsPoly_zero (hL : L.Lawful A) (hn : n ≤ A) (v : List F) (hv : v.length = 2 ^ n)
    (h0 : ∀ x ∈ v, x = 0) : dfsPoly L v = 0 := by
  rw [dfsPoly_units hL hn v hv]
  apply Finset.sum_eq_zero
  intro k hk
  have : v.getD k 0 = 0 := by
    rw [List.getD_eq_getElem _ _ (by rw [hv]; exact Finset.mem_range.1 hk)]
    exact h0 _ (List.getElem_mem _)
  rw [this]; simp

theorem verifyOverlap_lagrange (s : List (F × F × F)) : ∀ (alphas : List F) (f : F),
    verifyOverlap 0 s alphas f = f := by
  induction s with
  | nil => intro alphas f; rfl
  | cons a s ih =>
    intro alphas f
    cases s with
    | nil => rfl
    | cons b s =>
      cases alphas with
      | nil => rfl
      | cons al as => rw [verifyOverlap, mul_zero, add_zero]; exact ih as f

/-- The permutation argument with a running product zero, and the first Lagrange polynomial evaluated at a
root of it. -/
theorem permVerify_zero {S : Type} {ch : S → F × S} {l0 : List F} {mqc : Nat} {cl : PermClaims F} {y x : F}
    {st st' : S} {r : F × F × F} (h : permVerify ch l0 mqc 1 cl y st = some (r, st')) (hV : cl.V = 0)
    (hs : cl.shifted = 0) (hx : evalPoly l0 x = 0) :
    permVerify ch l0 mqc 1 cl x st = some ((0, 0, 0), st') := by
  unfold permVerify at h ⊢
  dsimp only at h ⊢
  rw [if_pos (rfl : (1 : Nat) = 1)] at h ⊢
  by_cases h1 : cl.cols.length ≠ cl.sId.length ∨ cl.cols.length ≠ cl.sSigma.length ∨ (1 : Nat) = 0
  · rw [if_pos h1] at h
    cases h
  · rw [if_neg h1] at h ⊢
    by_cases h2 : (drawN ch (1 - 1) (ch (ch st).2).2).1.length ≠ cl.partitions.length
    · rw [if_pos h2] at h
      cases h
    rw [if_neg h2] at h ⊢
    obtain ⟨gh, hgh, h⟩ := Option.bind_eq_some_iff.1 h
    refine bind_step hgh ?_
    simp only [Option.some.injEq, Prod.mk.injEq] at h
    rw [h.2, hV, hs, hx]
    simp

/-- The lookup argument with a running product zero, and the first Lagrange polynomial evaluated at a root of
it. -/
theorem lookupVerify_zero {S Com : Type} {ch : S → F × S} {absorb : Com → S → S} {com : Com} {sys : LookupSystem F}
    {mqc : Nat} {ev : Nat → Int → ColumnType → Option F} {cl : LookupClaims F} {st st' : S}
    {r : F × F × F × F} (h : lookupVerify ch absorb com sys mqc ev cl st = some (r, st'))
    (hone : (sys.parts mqc).length = 1) (hV : cl.V = 0) (hs : cl.shifted = 0) :
    lookupVerify ch absorb com sys mqc ev { cl with lagrange0 := 0 } st = some ((0, 0, 0, 0), st') := by
  unfold lookupVerify at h ⊢
  obtain ⟨values, e1, h⟩ := Option.bind_eq_some_iff.1 h
  obtain ⟨inputs, e2, h⟩ := Option.bind_eq_some_iff.1 h
  refine bind_step e1 ?_
  refine bind_step e2 ?_
  dsimp only at h ⊢
  split_ifs at h with h1
  rw [if_neg h1]
  obtain ⟨gs, e3, h⟩ := Option.bind_eq_some_iff.1 h
  obtain ⟨hs', e4, h⟩ := Option.bind_eq_some_iff.1 h
  refine bind_step e3 ?_
  refine bind_step e4 ?_
  split_ifs at h with h2
  rw [if_neg h2, if_pos hone]
  obtain ⟨g, e5, h⟩ := Option.bind_eq_some_iff.1 h
  obtain ⟨k, e6, h⟩ := Option.bind_eq_some_iff.1 h
  refine bind_step e5 ?_
  refine bind_step e6 ?_
  simp only [Option.some.injEq, Prod.mk.injEq] at h
  simp [hV, hs, verifyOverlap_lagrange, h.2]

/-- The quotient and its chunks, with as many chunks as needed. -/
theorem quotient_split (hL : L.Lawful A) (hn : n ≤ A) (f : F[X]) (hf : PolyVanishesOnRows L n f) :
    ∃ chunks : List (List F), (∀ c ∈ chunks, c.length ≤ 2 ^ n) ∧ ∀ y, f.eval y =
      evalPoly (vanishingCoeffs (2 ^ n)) y * consolidateQuotient (chunks.map (evalPoly · y)) (2 ^ n) y := by
  have hN : 0 < 2 ^ n := by positivity
  refine ⟨splitPolynomial (polyDiv (coeffsOf f) (vanishingCoeffs (2 ^ n))) (2 ^ n - 1), ?_, fun y => ?_⟩
  · intro c hc
    have := ((C36_chunks (polyDiv (coeffsOf f) (vanishingCoeffs (2 ^ n))) (2 ^ n - 1)).2.1 c hc).2
    omega
  rw [C36_recombine _ _ hN, ← eval_toPoly, ← eval_toPoly, (toPoly_divMod _ _ (getLastD_vanishing _ hN)).1,
    toPoly_coeffsOf, toPoly_vanishing _ hN, ← eval_mul]
  congr 1
  have hm : (X ^ 2 ^ n - 1 : F[X]).Monic := monic_X_pow_sub_C 1 hN.ne'
  have hdvd := zerofier_dvd hL hn f hf
  have := modByMonic_add_div f (X ^ 2 ^ n - 1 : F[X])
  rw [(modByMonic_eq_zero_iff_dvd hm).2 hdvd, zero_add] at this
  exact this.symm

/-- FINDING (C66, C38): without assertions the verifier accepts proofs for tables that violate copy constraints
and lookups, and with any public inputs. For every circuit (with one part of each argument), every table that
satisfies the gates, every transcript and every scheme that lets provers open what they committed to, there is a
proof that is accepted, unless the points at which the prover has to open are exceptional for the scheme. If the
public input columns of the table are zero, it is accepted with all public inputs (of less than `2 ^ n` values
for each column). -/
theorem C66_release_forgery (hS : PlaceholderSetup L A n fuel d c order t) (hdeg : DegreesFit c) (hn0 : 0 < n)
    (hone : c.copies ≠ [] → permutationParts order.length mqc = some 1)
    (hlone : c.lookups.gates ≠ [] → c.lookups.parts mqc = [c.lookups.inputCount + c.lookups.optionCount] ∧
      0 < c.lookups.inputCount + c.lookups.optionCount)
    (hgates : GatesHold t c.gates d.usableRows)
    {S H Com Pr Data Obj : Type} {C : CommScheme F S Com Pr Data Obj} {T : PlonkTranscript S F H Com}
    {hash : H} {pd : PublicData F H Com Data} {o0 : Obj} {Has : FriPoly F → List F → Prop} {maxLen : Nat}
    {okPoints : List F → Prop} {okSetup : S → Prop} (hT : C.Total Has maxLen)
    (hO : C.Opens Has maxLen okPoints okSetup) (hC : C.Complete Has maxLen okPoints okSetup) (hR : C.RootLaws)
    (hH : HasLaws L n Has) (hmax : 2 ^ n ≤ maxLen)
    (hpre : placeholderPreprocess C T L n fuel d c order delta mqc hash t C.new = some (pd, o0))
    (hset : okSetup (T.key pd.common.hash pd.common.fixedCommitment)) :
    ∃ st : S, (∀ k i pts, verifierPoints L n d c pd.common (T.challenge st).1 = some pts →
        okPoints (lpcRequested k i pts)) →
      ∃ proof, placeholderVerify C T L n false d c pd.common proof o0 = some true ∧
        ((∀ col ∈ t.publicInputs, ∀ x ∈ col, x = 0) → ∀ publicInput : List (List F),
          (c.publicInputSizes = [] ∨ c.publicInputSizes.length = d.publicInput) →
          publicInput.length ≤ d.publicInput → (∀ xs ∈ publicInput, xs.length < 2 ^ n) →
          placeholderVerifyPublic C T L n false d c pd.common proof o0 publicInput = some true) := by
  have hL := hS.lib
  have hn := hS.small
  have hp := preprocess_facts hpre
  obtain ⟨s1, s2, s3, s4, q1, q2, q3, s8, s9, s10, s11, s12, s13⟩ := permPreprocess_shape hL hn hp.perm
  have hgl : pd.common.permutedColumns.length = order.length := length_mapM _ _ _ hp.indices
  have hone' : c.copies ≠ [] → pd.perm.parts = 1 := fun h => Option.some_inj.1 (s13.symm.trans (hone h))
  have hzero' : c.copies = [] → pd.perm.parts = 0 := by
    intro h
    rw [order_nil hS h] at s13
    simpa [permutationParts] using s13.symm
  obtain ⟨cols, hcols, hcl, hcb⟩ := hS.permutedCols hp.indices
  -- the point that is stored in the proof
  obtain ⟨x, hx⟩ : ∃ x, x = L.root n ^ (2 ^ n - 1) := ⟨_, rfl⟩
  have h2n : 2 ≤ 2 ^ n := by
    calc 2 = 2 ^ 1 := rfl
      _ ≤ 2 ^ n := Nat.pow_le_pow_right (by norm_num) hn0
  have hx0 : evalPoly pd.perm.lagrange0 x = 0 := by
    rw [q3, hx, ← eval_toPoly]
    have := dfsPoly_eval_row hL n hn (lagrangeValues (2 ^ n) 0) (by simp [lagrangeValues]) (2 ^ n - 1) (by omega)
    unfold dfsPoly at this
    rw [this]
    rw [List.getD_eq_getElem _ _ (by simp [lagrangeValues])]
    simp [lagrangeValues]
    omega
  -- the transcript
  let s0 := C.setup o0 (T.key pd.common.hash pd.common.fixedCommitment) pd.common.schemeData
  let m := c.lookups.inputCount + c.lookups.optionCount
  let st1 := fun v : Com => if c.copies = [] then T.absorb v s0.1 else
    (T.challenge (T.challenge (T.absorb v s0.1)).2).2
  let st2 := fun (v : Com) (l : Option Com) => if c.lookups.gates = [] then st1 v else
    (drawN T.challenge (m - 1) (T.challenge (T.challenge
      (l.elim (T.challenge (st1 v)).2 (T.absorb · (T.challenge (st1 v)).2))).2).2).2
  let st3 := fun (v : Com) (l p : Option Com) => if c.copies = [] ∧ c.lookups.gates = [] then st2 v l else
    p.elim (st2 v l) (T.absorb · (st2 v l))
  choose fg hfg hfz using fun st => C34_complete hS.gateSetup hgates T.challenge st
  let f := fun st => consolidate [0, 0, 0, 0, 0, 0, 0, fg st] (drawN T.challenge 8 (T.challenge st).2).1
  have hf : ∀ st, PolyVanishesOnRows L n (f st) := by
    intro st
    apply consolidate_vanishes
    intro g hg
    simp only [List.mem_cons, List.not_mem_nil, or_false] at hg
    rcases hg with rfl | rfl | rfl | rfl | rfl | rfl | rfl | rfl
    iterate 7 exact fun j hj => eval_zero
    exact hfz st
  choose chunks hck hcheq using fun st => quotient_split hL hn (f st) (hf st)
  let zeros : List F := List.replicate (2 ^ n) 0
  let P : ProverStrategy F Com :=
    { perm := fun _ => if c.copies = [] then [] else [[]]
      sorted := fun _ => if c.lookups.gates = [] then [] else List.replicate m zeros
      vl := fun _ _ => if c.lookups.gates = [] then [] else [zeros]
      chunks := fun v l p => chunks (st3 v l p) }
  have hP : P.Fits n c pd.perm.parts :=
    { permLen := by
        intro v p hpm
        simp only [P] at hpm
        split_ifs at hpm <;> simp at hpm
        simp [hpm]
      sortedLen := by
        intro v p hpm
        simp only [P] at hpm
        split_ifs at hpm
        · simp at hpm
        · rw [(List.mem_replicate.1 hpm).2]; simp [zeros]
      vlLen := by
        intro v l p hpm
        simp only [P] at hpm
        split_ifs at hpm <;> simp at hpm
        simp [hpm, zeros]
      chunksLen := fun v l p => hck _
      copies := by intro v; simp only [P]; split_ifs with h <;> simp [h]
      parts := by
        intro v
        simp only [P]
        split_ifs with h
        · rw [hzero' h]; rfl
        · rw [hone' h]; rfl
      lookups := by intro v l; simp only [P]; split_ifs with h <;> simp [h]
      noLookups := by intro v h; simp only [P]; rw [if_pos h] }
  obtain ⟨vcom, lcom, pcom, qcom, hlc, hpc, hmain⟩ := any_prover hT hO hC hR hH hmax hS hp hset P hP
    (fun v l p q => T.challenge (T.absorb q (drawN T.challenge 8 (T.challenge (st3 v l p)).2).2))
  refine ⟨T.absorb qcom (drawN T.challenge 8 (T.challenge (st3 vcom lcom pcom)).2).2, fun hok => ?_⟩
  obtain ⟨e, hz, pts, w, st', hpts, hw, hver⟩ := hmain hok
  set y := T.challenge (T.absorb qcom (drawN T.challenge 8 (T.challenge (st3 vcom lcom pcom)).2).2) with hy
  obtain ⟨c1, c2, c3, c4, -, -⟩ := find_proofCommitments vcom lcom pcom qcom
  obtain ⟨k, hm1, hm2⟩ := hz.permSize
  obtain ⟨ev, hev1, hev2⟩ := hz.columnsAtY_eq
  obtain ⟨hte, htl⟩ := hS.evaluations hp hev2
  obtain ⟨hq1, hq2⟩ := hz.quotient
  have hz0 : dfsPoly L zeros = 0 := dfsPoly_zero hL hn _ (by simp [zeros]) fun x hx => (List.mem_replicate.1 hx).2
  have hacc : placeholderVerify C T L n false d c pd.common
      ⟨proofCommitments vcom lcom pcom qcom, x, e⟩ o0 = some true := by
    -- the permutation argument
    have eperm : (if c.copies.length > 0 then do
        let claims ← readPermClaims e.1 d pd.common pd.common.permutedColumns.length
          (evalPoly pd.perm.qLast y.1) (evalPoly pd.perm.qBlind y.1)
        permVerify T.challenge pd.perm.lagrange0 pd.common.mqc pd.common.permutationParts claims x
          (T.absorb vcom s0.1)
      else some ((0, 0, 0), T.absorb vcom s0.1)) = some ((0, 0, 0), st1 vcom) := by
      by_cases h : c.copies = []
      · rw [if_neg (by simp [h])]
        simp only [st1, if_pos h]
      · rw [if_pos (List.length_pos_iff.2 h), hz.permClaims (common := pd.common) (V := []) (partitions := []) rfl
          hp.parts rfl hcols (by simp only [P, if_neg h]) (by rw [hone' h]; rfl) h (by rw [hone' h]; exact one_ne_zero)]
        simp only [Option.bind_eq_bind, Option.bind_some]
        obtain ⟨f0, f1, f2, -, -, -, e3⟩ := permVerify_polys (L := L) s3 s4 s1 s2 s8 s9 s10 (s12 ▸ s13) (hone' h) cols
          hcl hcb [] (by simp) (T.challenge (T.absorb vcom s0.1)).1
          (T.challenge (T.challenge (T.absorb vcom s0.1)).2).1
        have := e3 S T.challenge (T.absorb vcom s0.1) y.1 rfl rfl
        rw [hone' h] at this
        rw [hp.mqcEq, hp.parts, hone' h, ← s12, permVerify_zero this (by simp [trueClaims, evalPoly])
          (by simp [trueClaims, evalPoly]) hx0]
        simp only [st1, if_neg h]
    -- the lookup argument
    have elook : (if c.lookups.gates.length > 0 then do
        let claims ← readLookupClaims e.1 pd.common (evalPoly pd.perm.lagrange0 x)
          (evalPoly pd.perm.qLast y.1) (evalPoly pd.perm.qBlind y.1)
        let lcom ← (proofCommitments vcom lcom pcom qcom).find LOOKUP_BATCH
        lookupVerify T.challenge T.absorb lcom c.lookups pd.common.mqc ev claims (st1 vcom)
      else some ((0, 0, 0, 0), st1 vcom)) = some ((0, 0, 0, 0), st2 vcom lcom) := by
      by_cases h : c.lookups.gates = []
      · rw [if_neg (by simp [h])]
        simp only [st2, if_pos h]
      · obtain ⟨l, rfl⟩ := hlc h
        have hcl := hz.lookupClaims (common := pd.common) (mqc := mqc) (V := zeros) (partitions := []) hp.parts
          (hP.parts _) rfl hp.lookupParts (by simp only [P, if_neg h]) (by rw [(hlone h).1]; rfl) h s11
        have hcl' : readLookupClaims e.1 pd.common (evalPoly pd.perm.lagrange0 x)
            (evalPoly pd.perm.qLast y.1) (evalPoly pd.perm.qBlind y.1) =
            some { trueLookupClaims L n (lookupData pd.perm) (P.sorted vcom) zeros [] y.1 with lagrange0 := 0 } := by
          rw [hx0]
          unfold readLookupClaims at hcl ⊢
          simp only [Option.bind_eq_bind, Option.bind_eq_some_iff, Option.some.injEq] at hcl ⊢
          obtain ⟨a1, b1, a2, b2, a3, b3, a4, b4, a5, b5, a6, b6, a7, b7, hcl⟩ := hcl
          exact ⟨a1, b1, a2, b2, a3, b3, a4, b4, a5, b5, a6, b6, a7, b7, by rw [← hcl]⟩
        rw [if_pos (List.length_pos_iff.2 h), hcl', c2]
        simp only [Option.bind_eq_bind, Option.bind_some]
        obtain ⟨f0, f1, f2, f3, -, -, -, -, e4⟩ := lookupVerify_polys (hS.lookupSetup_of hp.perm h) hdeg.inputs
          (p := m) (by
            rw [show (lookupData pd.perm).mqc = mqc from s12]
            exact (hlone h).1)
          (P.sorted vcom) (hP.sortedLen vcom) zeros (by simp [zeros]) (T.challenge (st1 vcom)).1
          (T.challenge (T.absorb l (T.challenge (st1 vcom)).2)).1
          (T.challenge (T.challenge (T.absorb l (T.challenge (st1 vcom)).2)).2).1
          (drawN T.challenge ((P.sorted vcom).length - 1)
            (T.challenge (T.challenge (T.absorb l (T.challenge (st1 vcom)).2)).2).2).1
          (K := c.lookupCosts.sum) le_rfl
        have := e4 S Com T.challenge T.absorb l (st1 vcom) y.1 ev (htl h) rfl rfl rfl rfl
        have hsl : (P.sorted vcom).length = m := by simp [P, h]
        rw [if_pos ⟨rfl, hsl, (hlone h).2.ne'⟩, show (lookupData pd.perm).mqc = pd.perm.mqc from rfl, s12] at this
        rw [hp.mqcEq, lookupVerify_zero this (by rw [(hlone h).1]; rfl) (by simp [trueLookupClaims, hz0])
          (by simp [trueLookupClaims, hz0]), hsl]
        simp only [st2, if_neg h]
        rfl
    have epc : (if c.copies.length > 0 ∨ c.lookups.gates.length > 0 then do
        let pcom ← (proofCommitments vcom lcom pcom qcom).find PERMUTATION_BATCH
        some (T.absorb pcom (st2 vcom lcom))
      else some (st2 vcom lcom)) = some (st3 vcom lcom pcom) := by
      by_cases h : c.copies = [] ∧ c.lookups.gates = []
      · rw [if_neg (by simp [h.1, h.2])]
        simp only [st3, if_pos h]
      · have h' : c.copies ≠ [] ∨ c.lookups.gates ≠ [] := not_and_or.1 h
        obtain ⟨p, rfl⟩ := hpc h'
        rw [if_pos (by simpa only [gt_iff_lt, List.length_pos_iff] using h'), c3]
        simp only [st3, if_neg h]
        rfl
    have egate : gateVerify T.challenge c.gates ev
        (1 - evalPoly pd.perm.qLast y.1 - evalPoly pd.perm.qBlind y.1) (st3 vcom lcom pcom) =
        some ((fg (st3 vcom lcom pcom)).eval y.1, (T.challenge (st3 vcom lcom pcom)).2) := by
      have := C33_gates hS.gateSetup T.challenge _ _ _ _ (hfg (st3 vcom lcom pcom)) y.1 ev hte
      rw [← this]
      congr 1
      rw [q1, q2]
      simp [rowMask, gateMask, dfsPoly, eval_toPoly]
    unfold placeholderVerify
    refine bind_step c1 ?_
    refine bind_step hz.qLast.1 ?_
    refine bind_step hz.qBlind.1 ?_
    refine bind_step hm1 ?_
    rw [hm2, hp.lagrange0]
    refine ite_step eperm ?_
    refine bind_step hev1 ?_
    refine ite_step2 elook ?_
    refine ite_step epc ?_
    refine bind_step egate ?_
    refine bind_step c4 ?_
    refine (if_neg (by simp)).trans ?_
    refine bind_step hz.sizes ?_
    refine bind_step hpts ?_
    refine bind_step hw ?_
    refine bind_step hver ?_
    refine (if_pos rfl).trans ?_
    refine bind_step hq1 ?_
    refine bind_step hq2 ?_
    show some (decide _) = some true
    rw [hp.desc, hS.rows, hp.Z, Option.some_inj, decide_eq_true_iff]
    have h1 := verifier_consolidate [0, 0, 0, 0, 0, 0, 0, fg (st3 vcom lcom pcom)]
      (drawN T.challenge 8 (T.challenge (st3 vcom lcom pcom)).2).1 y.1
    simp only [List.map_cons, List.map_nil, eval_zero] at h1
    rw [h1]
    exact hcheq (st3 vcom lcom pcom) y.1
  refine ⟨_, hacc, ?_⟩
  intro hpub publicInput hsizes hlen hshort
  have hnum : (x ^ d.rows - 1) * ((d.rows : F))⁻¹ = 0 := by
    have hx1 : x ^ 2 ^ n = 1 := by
      rw [hx, pow_right_comm, root_pow_card hL n hn, one_pow]
    rw [hS.rows, hx1, sub_self, zero_mul]
  have hcheck : checkPublicInputs e.1 d c.publicInputSizes ((L.domain n).elem 1)
      ((x ^ d.rows - 1) * ((d.rows : F))⁻¹) x publicInput 0 = some true := by
    rw [checkPublicInputs_iff]
    intro j xs hj
    obtain ⟨hjl, hje⟩ := List.getElem?_eq_some_iff.1 hj
    have hxs : xs ∈ publicInput := List.mem_of_getElem? hj
    refine ⟨fun h => ?_, ?_⟩
    · rcases hsizes with h' | h'
      · exact absurd h' h
      · omega
    have hv := (publicInputSum_some ((L.domain n).elem 1) x
      (xs.take (publicSize c.publicInputSizes (0 + j) xs))).2 (by
        intro k hk he
        have hk' : k < 2 ^ n - 1 := by
          have := hshort xs hxs
          rw [List.length_take] at hk
          omega
        rw [hx, show (L.domain n).elem 1 = L.root n from pow_one _] at he
        have := elem_injective hL n hn (2 ^ n - 1) k (by omega) (by omega) he
        omega)
    obtain ⟨v, hv⟩ := hv
    refine ⟨v, hv, ?_⟩
    rw [hnum, mul_zero]
    have hpl : t.publicInputs.length = d.publicInput := hS.fits.publicInput
    have hwl : t.witnesses.length = d.witness := hS.fits.witness
    obtain ⟨col, hcol⟩ : ∃ col, t.publicInputs[j]? = some col := ⟨_, List.getElem?_eq_getElem (by omega)⟩
    have htc : t.column (d.witness + (0 + j)) = some col := by
      rw [column_append, List.getElem?_append_right (by omega), hwl]
      rw [show d.witness + (0 + j) - d.witness = j by omega, List.getElem?_append_left (by omega)]
      exact hcol
    have hg : d.witness + (0 + j) < d.width := by unfold TableDesc.width; omega
    have hz0' := hz.zeros (d.witness + (0 + j)) hg
    obtain ⟨r, hr⟩ : ∃ r, (pd.common.rotations.getD (d.witness + (0 + j)) [])[0]? = some r := by
      cases h : pd.common.rotations.getD (d.witness + (0 + j)) [] with
      | nil => rw [h] at hz0'; simp at hz0'
      | cons a l => exact ⟨a, rfl⟩
    rw [(hz.column htc hr).1 (by omega), dfsPoly_zero hL hn col
      (hS.fits.rect.2.1 _ (List.mem_of_getElem? hcol)) (hpub col (List.mem_of_getElem? hcol)), eval_zero]
  unfold placeholderVerifyPublic
  dsimp only
  rw [if_neg (by
    rintro ⟨h1, h2⟩
    rcases hsizes with h | h
    · exact h1 (by rw [h]; rfl)
    · exact h2 h)]
  refine bind_step hcheck ?_
  exact (if_pos rfl).trans hacc

end Crypto3Zk
