import Verif.Lemmas.LPCClaims
import Verif.Lemmas.PlaceholderLpcTotal
import Verif.Lemmas.VerifyDefined
import Verif.Props.PlaceholderReleaseExample
import Verif.Props.PlaceholderKzgForgery

/-!
# C117: placeholder proofs over LPC for tables that violate the circuit

LPC draws the challenge `theta` without the claimed values (lpc.hpp:202-224), and only their combination with its
powers is checked. The prover can commit to two zero chunks of the quotient, and claim values for them, after
`theta` is known, for which the last equation of the verifier holds.
-/

set_option linter.unusedSectionVars false

namespace Crypto3Zk

open Polynomial

variable {F : Type} [Field F] [DecidableEq F]
variable {L : FftLib F} {A n fuel : Nat} {d : TableDesc} {c : Circuit F} {order : List PlonkVar}
  {t : PlonkTable F} {delta : F} {mqc : Nat}

theorem HonestStorage.withQuotient {rots : List (List Int)} {parts usable s : Nat} {y : F} {pre : PermData F}
    {perm sorted vl : List (List F)} {z : EvalStorage F} {a b : F}
    (h : HonestStorage L n d c rots parts usable s y pre t perm sorted vl [[a], [b]] z) (a' b' : F) :
    HonestStorage L n d c rots parts usable s y pre t perm sorted vl [[a'], [b']]
      (z.withBatch QUOTIENT_BATCH [[a'], [b']]) where
  fits := h.fits
  len := h.len
  width := h.width
  sId := h.sId
  sSigma := h.sSigma
  small := h.small
  zeros := h.zeros
  find k hk := by
    have hf := h.find k hk
    rw [EvalStorage.find_withBatch]
    by_cases h3 : k = QUOTIENT_BATCH
    · subst h3
      rw [if_pos rfl, hf, Option.map_some, Option.some_inj]
      show _ = ([[a'], [b']] : List (List F)).mapIdx _
      simp [(pointOps_requested L n d c rots parts usable (s * 2 + 2) y _).2.2.2.1, evalPoly]
    · rw [if_neg h3, hf]
      rcases hk with rfl | rfl | ⟨-, rfl⟩ | ⟨-, rfl⟩ | rfl
      iterate 4 rfl
      exact absurd rfl h3

theorem HonestStorage.quotient_claims {rots : List (List Int)} {parts usable s : Nat} {y : F} {pre : PermData F}
    {perm sorted vl : List (List F)} {z : EvalStorage F} {a b : F}
    (h : HonestStorage L n d c rots parts usable s y pre t perm sorted vl [[a], [b]] z) :
    z.find QUOTIENT_BATCH = some [[a], [b]] := by
  have hf := h.find QUOTIENT_BATCH (by simp)
  rw [hf, Option.some_inj]
  show ([[a], [b]] : List (List F)).mapIdx _ = _
  simp [(pointOps_requested L n d c rots parts usable (s * 2 + 2) y _).2.2.2.1, evalPoly]

/-- The forgery for all schemes in which two claims for the same point can be exchanged for others with the same
combination. -/
theorem exchanged_forgery (hS : PlaceholderSetup L A n fuel d c order t)
    (hparts : c.lookups.gates ≠ [] → ∀ p ∈ c.lookups.parts mqc, p ≠ 0)
    {S H Com Pr Data Obj : Type} {C : CommScheme F S Com Pr Data Obj} {T : PlonkTranscript S F H Com}
    {hash : H} {pd : PublicData F H Com Data} {o0 : Obj} {Has : FriPoly F → List F → Prop} {maxLen : Nat}
    {okPoints : List F → Prop} {okSetup : S → Prop} (hT : C.Total Has maxLen)
    (hO : C.Opens Has maxLen okPoints okSetup) (hC : C.Complete Has maxLen okPoints okSetup) (hR : C.RootLaws)
    (hH : HasLaws L n Has) (hmax : 2 ^ n ≤ maxLen)
    (hpre : placeholderPreprocess C T L n fuel d c order delta mqc hash t C.new = some (pd, o0))
    (hset : okSetup (T.key pd.common.hash pd.common.fixedCommitment)) (theta : OMap Com → S → F)
    (hve : ∀ P y pts v e coms st u, (P QUOTIENT_BATCH).length = 2 → verifierPoints L n d c pd.common y = some pts →
      C.run (C.setup o0 (T.key pd.common.hash pd.common.fixedCommitment) pd.common.schemeData).2
        (honestSizes c P ++ pts) = some v → e.1.find QUOTIENT_BATCH = some [[0], [0]] →
      C.verifyEval v (e.1.withBatch QUOTIENT_BATCH [[0 + u * theta coms st], [0 - u]], e.2) coms st =
        C.verifyEval v e coms st) :
    ∃ (st : S) (coms : OMap Com), (∀ k i pts, verifierPoints L n d c pd.common (T.challenge st).1 = some pts →
        okPoints (lpcRequested k i pts)) → (T.challenge st).1 ^ 2 ^ n ≠ 1 →
      theta coms (T.challenge st).2 ≠ (T.challenge st).1 ^ 2 ^ n →
      ∃ proof, proof.challenge = (T.challenge st).1 ∧
        proof.commitments.insert FIXED_BATCH pd.common.fixedCommitment = coms ∧
        VariableOpened L n d c pd.common t proof ∧
        ∀ asserts, placeholderVerify C T L n asserts d c pd.common proof o0 = some true ∧
          ∀ publicInput, PublicInputOf d c n t publicInput →
            placeholderVerifyPublic C T L n asserts d c pd.common proof o0 publicInput = some true := by
  have hL := hS.lib
  have hn := hS.small
  have hp := preprocess_facts hpre
  obtain ⟨s1, s2, s3, s4, q1, q2, q3, s8, s9, s10, s11, s12, s13⟩ := permPreprocess_shape hL hn hp.perm
  have hgl : pd.common.permutedColumns.length = order.length := length_mapM _ _ _ hp.indices
  have hpos' : c.copies ≠ [] → pd.perm.parts ≠ 0 := fun h => permutationParts_pos (order_ne_nil hS h) s13
  have hlsum : c.lookups.gates ≠ [] → (c.lookups.parts mqc).sum = c.lookups.inputCount + c.lookups.optionCount :=
    lookup_parts_sum
  have hzero' : c.copies = [] → pd.perm.parts = 0 := by
    intro h
    rw [order_nil hS h] at s13
    simpa [permutationParts] using s13.symm
  obtain ⟨cols, hcols, hcl, hcb⟩ := hS.permutedCols hp.indices
  -- the transcript
  let s0 := C.setup o0 (T.key pd.common.hash pd.common.fixedCommitment) pd.common.schemeData
  let m := c.lookups.inputCount + c.lookups.optionCount
  let st1 := fun v : Com => if c.copies = [] then T.absorb v s0.1 else
    (drawN T.challenge (pd.perm.parts - 1) (T.challenge (T.challenge (T.absorb v s0.1)).2).2).2
  let st2 := fun (v : Com) (l : Option Com) => if c.lookups.gates = [] then st1 v else
    (drawN T.challenge (m - 1) (drawN T.challenge ((c.lookups.parts mqc).length - 1) (T.challenge (T.challenge
      (l.elim (T.challenge (st1 v)).2 (T.absorb · (T.challenge (st1 v)).2))).2).2).2).2
  let st3 := fun (v : Com) (l p : Option Com) => if c.copies = [] ∧ c.lookups.gates = [] then st2 v l else
    p.elim (st2 v l) (T.absorb · (st2 v l))
  let zeros : List F := List.replicate (2 ^ n) 0
  let P : ProverStrategy F Com :=
    { perm := fun _ => if c.copies = [] then [] else [] :: List.replicate (pd.perm.parts - 1) []
      sorted := fun _ => if c.lookups.gates = [] then [] else List.replicate m zeros
      vl := fun _ _ => if c.lookups.gates = [] then [] else
        zeros :: List.replicate ((c.lookups.parts mqc).length - 1) zeros
      chunks := fun _ _ _ => [[0], [0]] }
  have hP : P.Fits n c pd.perm.parts :=
    { permLen := by
        intro v p hpm
        simp only [P] at hpm
        split_ifs at hpm
        · simp at hpm
        · obtain rfl : p = [] := by
            rcases List.mem_cons.1 hpm with h | h
            · exact h
            · exact (List.mem_replicate.1 h).2
          simp
      sortedLen := by
        intro v p hpm
        simp only [P] at hpm
        split_ifs at hpm
        · simp at hpm
        · rw [(List.mem_replicate.1 hpm).2]; simp [zeros]
      vlLen := by
        intro v l p hpm
        simp only [P] at hpm
        split_ifs at hpm
        · simp at hpm
        · obtain rfl : p = zeros := by
            rcases List.mem_cons.1 hpm with h | h
            · exact h
            · exact (List.mem_replicate.1 h).2
          simp [zeros]
      chunksLen := by
        intro v l p x hx
        have : x = [0] := by simpa [P] using hx
        rw [this]
        exact Nat.one_le_two_pow
      copies := by intro v; simp only [P]; split_ifs with h <;> simp [h]
      parts := by
        intro v
        simp only [P]
        split_ifs with h
        · rw [hzero' h]; rfl
        · have := hpos' h
          simp only [List.length_cons, List.length_replicate]
          omega
      lookups := by intro v l; simp only [P]; split_ifs with h <;> simp [h]
      noLookups := by intro v h; simp only [P]; rw [if_pos h] }
  obtain ⟨vcom, lcom, pcom, qcom, hlc, hpc, hmain⟩ := any_prover hT hO hC hR hH hmax hS hp hset P hP
    (fun v l p q => T.challenge (T.absorb q (drawN T.challenge 8 (T.challenge (st3 v l p)).2).2))
  refine ⟨T.absorb qcom (drawN T.challenge 8 (T.challenge (st3 vcom lcom pcom)).2).2,
    (proofCommitments vcom lcom pcom qcom).insert FIXED_BATCH pd.common.fixedCommitment, fun hok hy1 hth => ?_⟩
  obtain ⟨e, hz, pts, w, st', hpts, hw, hver⟩ := hmain hok
  set y := T.challenge (T.absorb qcom (drawN T.challenge 8 (T.challenge (st3 vcom lcom pcom)).2).2) with hy
  set coms := (proofCommitments vcom lcom pcom qcom).insert FIXED_BATCH pd.common.fixedCommitment with hcoms
  have hz' := fun a b : F => HonestStorage.withQuotient (a := 0) (b := 0) hz a b
  obtain ⟨c1, c2, c3, c4, -, -⟩ := find_proofCommitments vcom lcom pcom qcom
  -- the permutation argument
  obtain ⟨fp, eperm⟩ : ∃ fp : F × F × F, ∀ a b : F, (if c.copies.length > 0 then do
      let claims ← readPermClaims (e.1.withBatch QUOTIENT_BATCH [[a], [b]]) d pd.common
        pd.common.permutedColumns.length (evalPoly pd.perm.qLast y.1) (evalPoly pd.perm.qBlind y.1)
      permVerify T.challenge pd.perm.lagrange0 pd.common.mqc pd.common.permutationParts claims y.1
        (T.absorb vcom s0.1)
    else some ((0, 0, 0), T.absorb vcom s0.1)) = some (fp, st1 vcom) := by
    by_cases h : c.copies = []
    · refine ⟨(0, 0, 0), fun a b => ?_⟩
      rw [if_neg (by simp [h])]
      simp only [st1, if_pos h]
    · obtain ⟨f, hf⟩ := permVerify_defined T.challenge pd.perm.lagrange0 (mqc := mqc) (parts := pd.perm.parts)
        (trueClaims L n pd.perm cols [] (List.replicate (pd.perm.parts - 1) []) y.1) y.1 (T.absorb vcom s0.1)
        (by simp [trueClaims, hcl, s1]) (by simp [trueClaims, hcl, s2])
        (by simpa [trueClaims, hcl] using s13) (hpos' h) (by simp [trueClaims])
      refine ⟨f, fun a b => ?_⟩
      rw [if_pos (List.length_pos_iff.2 h), (hz' a b).permClaims (common := pd.common) (V := [])
        (partitions := List.replicate (pd.perm.parts - 1) []) rfl hp.parts rfl hcols
        (by simp only [P, if_neg h]) (by simp) h (hpos' h)]
      simp only [Option.bind_eq_bind, Option.bind_some]
      rw [hp.mqcEq, hp.parts, hf]
      simp only [st1, if_neg h]
  -- the lookup argument
  obtain ⟨fl, elook⟩ : ∃ fl : F × F × F × F, ∀ (a b : F) ev,
      (c.lookups.gates ≠ [] → TrueLookupEvaluations L n t c.lookups y.1 ev) →
      (if c.lookups.gates.length > 0 then do
        let claims ← readLookupClaims (e.1.withBatch QUOTIENT_BATCH [[a], [b]]) pd.common
          (evalPoly pd.perm.lagrange0 y.1) (evalPoly pd.perm.qLast y.1) (evalPoly pd.perm.qBlind y.1)
        let lcom ← (proofCommitments vcom lcom pcom qcom).find LOOKUP_BATCH
        lookupVerify T.challenge T.absorb lcom c.lookups pd.common.mqc ev claims (st1 vcom)
      else some ((0, 0, 0, 0), st1 vcom)) = some (fl, st2 vcom lcom) := by
    by_cases h : c.lookups.gates = []
    · refine ⟨(0, 0, 0, 0), fun a b ev _ => ?_⟩
      rw [if_neg (by simp [h])]
      simp only [st2, if_pos h]
    · obtain ⟨l, rfl⟩ := hlc h
      have hmq : (lookupData pd.perm).mqc = mqc := s12
      have hsl : (P.sorted vcom).length = m := by simp [P, h]
      obtain ⟨f, hf⟩ := lookupVerify_defined (hS.lookupSetup_of hp.perm h) T.challenge T.absorb l (st1 vcom)
        (P.sorted vcom) zeros (List.replicate ((c.lookups.parts mqc).length - 1) zeros) y.1
        (by rw [hmq]; exact hparts h) (by rw [hmq]; exact hlsum h) hsl (by rw [hmq]; exact lookup_parts_ne_nil)
        (by rw [hmq, List.length_replicate])
      refine ⟨f, fun a b ev hev => ?_⟩
      have hcl := (hz' a b).lookupClaims (common := pd.common) (mqc := mqc) (V := zeros)
        (partitions := List.replicate ((c.lookups.parts mqc).length - 1) zeros) hp.parts
        (hP.parts _) rfl hp.lookupParts (by simp only [P, if_neg h]) (by simp) h s11
      rw [if_pos (List.length_pos_iff.2 h), hcl, c2]
      simp only [Option.bind_eq_bind, Option.bind_some]
      have := hf ev (hev h)
      rw [hmq, hsl] at this
      rw [hp.mqcEq, this]
      simp only [st2, if_neg h]
      rfl
  have epc : (if c.copies.length > 0 ∨ c.lookups.gates.length > 0 then do
      let pcom ← (proofCommitments vcom lcom pcom qcom).find PERMUTATION_BATCH
      some (T.absorb pcom (st2 vcom lcom))
    else some (st2 vcom lcom)) = some (st3 vcom lcom pcom) := by
    by_cases h : c.copies = [] ∧ c.lookups.gates = []
    · rw [if_neg (by simp [h.1, h.2])]
      simp only [st3, if_pos h]
    · have h' : c.copies ≠ [] ∨ c.lookups.gates ≠ [] := not_and_or.1 h
      obtain ⟨p, rfl⟩ := hpc h'
      rw [if_pos (by simpa only [gt_iff_lt, List.length_pos_iff] using h'), c3]
      simp only [st3, if_neg h]
      rfl
  -- the gates
  obtain ⟨fg, egate⟩ : ∃ fg : F, ∀ ev, TrueEvaluations L n t c.gates y.1 ev →
      gateVerify T.challenge c.gates ev
        (1 - evalPoly pd.perm.qLast y.1 - evalPoly pd.perm.qBlind y.1) (st3 vcom lcom pcom) =
        some (fg, (T.challenge (st3 vcom lcom pcom)).2) := by
    obtain ⟨p, hpg⟩ := C34_prover_succeeds hS.gateSetup T.challenge (rowMask L n d.usableRows) (st3 vcom lcom pcom)
    refine ⟨p.eval y.1, fun ev hte => ?_⟩
    have := C33_gates hS.gateSetup T.challenge _ _ _ _ hpg y.1 ev hte
    rw [← this]
    congr 1
    rw [q1, q2]
    simp [rowMask, gateMask, dfsPoly, eval_toPoly]
  -- the claims for the quotient
  have hZ : evalPoly (vanishingCoeffs (2 ^ n)) y.1 ≠ 0 := by
    rw [← eval_toPoly, toPoly_vanishing _ (by positivity)]
    simpa [sub_eq_zero] using hy1
  obtain ⟨target, htarget⟩ : ∃ x : F, x = (List.zipWith (fun a f => a * f)
      (drawN T.challenge 8 (T.challenge (st3 vcom lcom pcom)).2).1
      [fp.1, fp.2.1, fp.2.2, fl.1, fl.2.1, fl.2.2.1, fl.2.2.2, fg]).foldl (· + ·) 0 := ⟨_, rfl⟩
  obtain ⟨th, hthe⟩ : ∃ x, x = theta coms y.2 := ⟨_, rfl⟩
  obtain ⟨u, hu⟩ : ∃ u : F, u = target / (evalPoly (vanishingCoeffs (2 ^ n)) y.1 * (th - y.1 ^ 2 ^ n)) := ⟨_, rfl⟩
  have hdiff : th - y.1 ^ 2 ^ n ≠ 0 := sub_ne_zero.2 (hthe ▸ hth)
  have hz2 := hz' (0 + u * th) (0 - u)
  have hver' : C.verifyEval w (e.1.withBatch QUOTIENT_BATCH [[0 + u * th], [0 - u]], e.2) coms y.2 =
      some (true, st') := by
    rw [hthe, hve _ _ _ _ e coms y.2 u rfl hpts hw (HonestStorage.quotient_claims (a := 0) (b := 0) hz)]
    exact hver
  obtain ⟨k, hm1, hm2⟩ := hz2.permSize
  obtain ⟨ev, hev1, hev2⟩ := hz2.columnsAtY_eq
  obtain ⟨hte, htl⟩ := hS.evaluations hp hev2
  obtain ⟨hq1, hq2⟩ := hz2.quotient
  have hacc : ∀ asserts, placeholderVerify C T L n asserts d c pd.common
      ⟨proofCommitments vcom lcom pcom qcom, y.1,
        (e.1.withBatch QUOTIENT_BATCH [[0 + u * th], [0 - u]], e.2)⟩ o0 = some true := by
    intro asserts
    unfold placeholderVerify
    refine bind_step c1 ?_
    refine bind_step hz2.qLast.1 ?_
    refine bind_step hz2.qBlind.1 ?_
    refine bind_step hm1 ?_
    rw [hm2, hp.lagrange0]
    refine ite_step (eperm _ _) ?_
    refine bind_step hev1 ?_
    refine ite_step2 (elook _ _ ev htl) ?_
    refine ite_step epc ?_
    refine bind_step (egate ev hte) ?_
    refine bind_step c4 ?_
    refine (if_neg (by simp [hy])).trans ?_
    refine bind_step hz2.sizes ?_
    refine bind_step hpts ?_
    refine bind_step hw ?_
    refine bind_step hver' ?_
    refine (if_pos rfl).trans ?_
    refine bind_step hq1 ?_
    refine bind_step hq2 ?_
    show some (decide _) = some true
    rw [hp.desc, hS.rows, hp.Z, Option.some_inj, decide_eq_true_iff]
    refine htarget.symm.trans ?_
    have h1 : consolidateQuotient ([[0 + u * th], [0 - u]].map (evalPoly · y.1)) (2 ^ n) y.1 =
        u * (th - y.1 ^ 2 ^ n) := by
      simp [consolidateQuotient, evalPoly, List.range_succ]
      ring
    show target = evalPoly (vanishingCoeffs (2 ^ n)) y.1 * consolidateQuotient _ (2 ^ n) y.1
    rw [h1, hu]
    field_simp
  have hopen : VariableOpened L n d c pd.common t ⟨proofCommitments vcom lcom pcom qcom, y.1,
        (e.1.withBatch QUOTIENT_BATCH [[0 + u * th], [0 - u]], e.2)⟩ := by
    intro pts' hpts'
    have hrl := (columnsRotations_spec d c _ hp.rotations).1
    rw [verifierPoints_eq L n d c pd.common _ hrl, hp.parts, hp.desc, Option.some_inj] at hpts'
    refine (hz2.find VARIABLE_BATCH (Or.inr (Or.inl rfl))).trans ?_
    rw [← hpts', Option.some_inj]
    simp only [VARIABLE_BATCH, honestPolys]
    rw [← List.map_append]
    apply List.ext_getElem (by simp)
    intro i h1 h2
    simp only [List.getElem_mapIdx, List.getElem_map]
    refine List.map_congr_left fun x _ => ?_
    rw [dfsPoly, eval_toPoly]
  refine ⟨_, rfl, rfl, hopen, fun asserts => ⟨hacc asserts, fun publicInput hpi => ?_⟩⟩
  rw [C38_verdict hL hS.small hS.rows asserts publicInput fun i xs hi => (hpi.fits i xs hi).2]
  refine ⟨hpi.sizes, hacc asserts, ?_⟩
  intro i xs hi
  obtain ⟨col, r, hcol, hrr, hrot⟩ := hpi.given i xs hi
  have hlen : col.length = 2 ^ n := hS.fits.rect.2.1 col (List.mem_of_getElem? hcol)
  refine ⟨(hpi.fits i xs hi).1, fun k hk hk' => hy1 ?_, ?_⟩
  · rw [show y.1 = L.root n ^ k from hk', pow_right_comm, root_pow_card hL n hn, one_pow]
  rw [first_claim hpre hS.fits.witness hS.fits.publicInput hcol hrr hopen, hrot,
    dfsPoly_rotate hL hS.small r col hlen]

/-- The points the verifier's object of LPC has for the quotient. -/
theorem lpc_quotient_points {S H Tree Root Path : Type} [DecidableEq Root] {M : MerkleLib F Tree Root Path}
    {T : FriTranscript S F Root} {prm : FriParams F} {dfs : Bool} {ff nonce : Nat}
    {PT : PlonkTranscript S F H Root} {hash : H} {pd : PublicData F H Root (OMap (List F))} {o0 : LpcScheme F Tree}
    (hp : PreFacts (lpcComm L M T prm dfs ff nonce) PT L n fuel d c order delta mqc hash t
      (lpcComm L M T prm dfs ff nonce).new pd o0) (st : S)
    (P : Nat → List (List F)) (y : F) (pts : List (LpcOp F)) (v : LpcScheme F Tree)
    (hlen : (P QUOTIENT_BATCH).length = 2) (hpts : verifierPoints L n d c pd.common y = some pts)
    (hv : (lpcComm L M T prm dfs ff nonce).run
      ((lpcComm L M T prm dfs ff nonce).setup o0 st pd.common.schemeData).2 (honestSizes c P ++ pts) = some v) :
    v.ev.points.find QUOTIENT_BATCH = some [[y], [y]] := by
  have hset : ((lpcComm L M T prm dfs ff nonce).setup o0 st pd.common.schemeData).2 =
      o0.withData (T.challenge st).2 pd.common.schemeData := rfl
  have hpre' : (fixedOps L n pd.perm t).foldlM (LpcOp.apply L M prm) LpcScheme.new = some o0 := hp.run
  have hrun : (honestSizes c P ++ pts).foldlM (LpcOp.apply L M prm)
      (o0.withData (T.challenge st).2 pd.common.schemeData) = some v := hset ▸ hv
  rw [lpc_run_withData] at hrun
  obtain ⟨v', hv', rfl⟩ := Option.map_eq_some_iff.1 hrun
  have hrun' : runLpc L M prm (fixedOps L n pd.perm t ++ (honestSizes c P ++ pts)) = some v' := by
    rw [runLpc, List.foldlM_append, hpre']
    exact hv'
  show v'.ev.points.find QUOTIENT_BATCH = _
  have inv := container_run _ v'.ev (lpc_run L M prm _ v' hrun').run
  have hrl := (columnsRotations_spec d c _ hp.rotations).1
  rw [verifierPoints_eq L n d c pd.common _ hrl, Option.some_inj] at hpts
  have hops := pointOps_ops L n d c pd.common.rotations pd.common.permutationParts pd.common.desc.usableRows
    (pd.common.permutedColumns.length * 2 + 2) y
  rw [hpts] at hops
  have hnc : LpcOp.commit QUOTIENT_BATCH ∉ fixedOps L n pd.perm t ++ (honestSizes c P ++ pts) := by
    simp only [List.mem_append, not_or]
    refine ⟨by simp [fixedOps, QUOTIENT_BATCH, FIXED_BATCH], ?_, fun h => ?_⟩
    · unfold honestSizes
      split_ifs <;> simp
    · rcases hops _ h with ⟨_, _, h⟩ | ⟨_, _, _, h⟩ <;> cases h
  have hsz : ∀ m, LpcOp.batchSize QUOTIENT_BATCH m ∈ fixedOps L n pd.perm t ++ (honestSizes c P ++ pts) ↔ m = 2 := by
    intro m
    have h1 : LpcOp.batchSize QUOTIENT_BATCH m ∉ fixedOps L n pd.perm t := by simp [fixedOps]
    have h2 : LpcOp.batchSize QUOTIENT_BATCH m ∉ pts := by
      intro h
      rcases hops _ h with ⟨_, _, h⟩ | ⟨_, _, _, h⟩ <;> cases h
    simp only [List.mem_append, h1, h2, false_or, or_false]
    unfold honestSizes
    rw [hlen]
    split_ifs <;>
      simp [QUOTIENT_BATCH, VARIABLE_BATCH, PERMUTATION_BATCH, LOOKUP_BATCH]
  have := inv.sized QUOTIENT_BATCH 2 (fun h => hnc ((committed_container L _ _).1 h))
    ((batchSize_container L _ _ _).2 ((hsz 2).2 rfl)) fun m h => (hsz m).1 ((batchSize_container L _ _ _).1 h)
  rw [this, Option.some_inj]
  have hreq : ∀ i, lpcRequested QUOTIENT_BATCH i (fixedOps L n pd.perm t ++ (honestSizes c P ++ pts)) = [y] := by
    intro i
    rw [lpcRequested_append, lpcRequested_append, ← hpts, (pointOps_requested L n d c pd.common.rotations
      pd.common.permutationParts pd.common.desc.usableRows (pd.common.permutedColumns.length * 2 + 2) y i).2.2.2.1]
    have h1 : lpcRequested QUOTIENT_BATCH i (fixedOps L n pd.perm t) = [] := by
      simp [lpcRequested, fixedOps]
    have h2 : lpcRequested QUOTIENT_BATCH i (honestSizes c P) = [] := by
      unfold honestSizes
      split_ifs <;> simp [lpcRequested]
    rw [h1, h2]
    rfl
  simp [requested_container, hreq, List.range_succ]

/-- **C117**, finding: over LPC, for every circuit (in which no part of the lookups is empty), every table
(also one that violates the gates, the copy constraints and the lookups), every Merkle tree and all transcripts there
is a proof that the verifier accepts, unless the challenges are exceptional: the points at which the prover has to open are
outside the first domain of FRI, the last challenge `y` of placeholder is not a row, and the challenge that LPC
draws next is not `y ^ 2 ^ n`. It is accepted with assertions, and with the public inputs of the table. -/
theorem C117_lpc_forgery [Fintype F] (hS : PlaceholderSetup L A n fuel d c order t)
    (hparts : c.lookups.gates ≠ [] → ∀ p ∈ c.lookups.parts mqc, p ≠ 0)
    {S H Tree Root Path : Type} [DecidableEq Root] (M : MerkleLib F Tree Root Path) (hM : M.Lawful)
    (T : FriTranscript S F Root) {prm : FriParams F} {N D s0 : Nat} (hprm : LpcParams L prm A N D)
    (hsteps : checkStepList prm.stepList prm.r = true) (hs0 : prm.stepList[0]? = some s0) (hs1 : 1 ≤ s0 ∧ s0 ≤ N)
    (hcard : Fintype.card F = prm.modulus) (hdvd : 2 ^ N ∣ prm.modulus - 1)
    (hch : ∀ st, (T.challenge st).2 ≠ 0) (dfs : Bool) (ff nonce : Nat)
    (hgrind : prm.useGrinding = true → ∀ st,
      (powGenerate T.toIntTranscript 32 prm.grindingParameter ff st nonce).isSome)
    (hN : n ≤ N) (hmax : 2 ^ n ≤ prm.maxDegree + 1)
    (C : CommScheme F S Root (FriProof F Root Path) (OMap (List F)) (LpcScheme F Tree))
    (hC : C = lpcComm L M T prm dfs ff nonce) (PT : PlonkTranscript S F H Root) (hash : H)
    (pd : PublicData F H Root (OMap (List F))) (o0 : LpcScheme F Tree)
    (hpre : placeholderPreprocess C PT L n fuel d c order delta mqc hash t C.new = some (pd, o0))
    (hset : ∀ m, (L.domain N).elem m ≠ (T.challenge (PT.key pd.common.hash pd.common.fixedCommitment)).2) :
    ∃ (st : S) (coms : OMap Root),
      (∀ k i pts, verifierPoints L n d c pd.common (PT.challenge st).1 = some pts →
        OutsideDomain L N (lpcRequested k i pts)) → (PT.challenge st).1 ^ 2 ^ n ≠ 1 →
      (T.challenge (coms.foldl (fun st e => T.absorbRoot st e.2) (PT.challenge st).2)).2 ≠
        (PT.challenge st).1 ^ 2 ^ n →
      ∃ proof, proof.challenge = (PT.challenge st).1 ∧
        proof.commitments.insert FIXED_BATCH pd.common.fixedCommitment = coms ∧
        VariableOpened L n d c pd.common t proof ∧
        ∀ asserts, placeholderVerify C PT L n asserts d c pd.common proof o0 = some true ∧
          ∀ publicInput, PublicInputOf d c n t publicInput →
            placeholderVerifyPublic C PT L n asserts d c pd.common proof o0 publicInput = some true := by
  subst hC
  have hp := preprocess_facts hpre
  refine exchanged_forgery hS hparts (lpcComm_total hS.lib M T hprm hs0 hs1 dfs ff nonce)
    (lpcComm_opens hS.lib M hM T hprm hsteps hcard hdvd hch dfs ff nonce hgrind)
    (lpcComm_complete hS.lib M hM T hprm dfs ff nonce) (lpcComm_rootLaws M T prm dfs ff nonce)
    (hasLaws_lpc N hN) hmax hpre hset
    (fun coms st => (T.challenge (coms.foldl (fun st e => T.absorbRoot st e.2) st)).2) ?_
  intro P y pts v e coms st u hlen hpts hv he
  exact lpc_claims_exchange M T prm v e.1 QUOTIENT_BATCH y 0 0 u he
    (lpc_quotient_points hp _ P y pts v hlen hpts hv) e.2 coms st _ rfl

/-- An element outside of the first domain of FRI is not a row. -/
theorem not_row_of_outside (hL : L.Lawful A) {N : Nat} (hnN : n ≤ N) (hN : N ≤ A) {y : F}
    (hy : ∀ m, (L.domain N).elem m ≠ y) : y ^ 2 ^ n ≠ 1 := by
  intro h
  have hprim := root_primitive hL n (hnN.trans hN)
  obtain ⟨k, -, hk⟩ := hprim.eq_pow_of_pow_eq_one h
  refine hy (2 ^ (N - n) * k) ?_
  show L.root N ^ (2 ^ (N - n) * k) = y
  rw [pow_mul, ← root_subgroup hL hnN hN, hk]

/-- **C117**, how exceptional the challenges are: there are at most `2 ^ N` bad choices of the last challenge of
Placeholder, for the size `2 ^ N` of the first domain of FRI, and one bad choice of the next challenge, the first one
of LPC. For all others the proof exists. -/
theorem C117_few_challenges [Fintype F] (hS : PlaceholderSetup L A n fuel d c order t)
    (hparts : c.lookups.gates ≠ [] → ∀ p ∈ c.lookups.parts mqc, p ≠ 0)
    {S H Tree Root Path : Type} [DecidableEq Root] (M : MerkleLib F Tree Root Path) (hM : M.Lawful)
    (T : FriTranscript S F Root) {prm : FriParams F} {N D s0 : Nat} (hprm : LpcParams L prm A N D)
    (hsteps : checkStepList prm.stepList prm.r = true) (hs0 : prm.stepList[0]? = some s0) (hs1 : 1 ≤ s0 ∧ s0 ≤ N)
    (hcard : Fintype.card F = prm.modulus) (hdvd : 2 ^ N ∣ prm.modulus - 1)
    (hch : ∀ st, (T.challenge st).2 ≠ 0) (dfs : Bool) (ff nonce : Nat)
    (hgrind : prm.useGrinding = true → ∀ st,
      (powGenerate T.toIntTranscript 32 prm.grindingParameter ff st nonce).isSome)
    (hN : n ≤ N) (hmax : 2 ^ n ≤ prm.maxDegree + 1)
    (C : CommScheme F S Root (FriProof F Root Path) (OMap (List F)) (LpcScheme F Tree))
    (hC : C = lpcComm L M T prm dfs ff nonce) (PT : PlonkTranscript S F H Root) (hash : H)
    (pd : PublicData F H Root (OMap (List F))) (o0 : LpcScheme F Tree)
    (hpre : placeholderPreprocess C PT L n fuel d c order delta mqc hash t C.new = some (pd, o0))
    (hset : ∀ m, (L.domain N).elem m ≠ (T.challenge (PT.key pd.common.hash pd.common.fixedCommitment)).2) :
    ∃ (st : S) (coms : OMap Root) (bad : Finset F), bad.card ≤ 2 ^ N ∧
      ((PT.challenge st).1 ∉ bad →
        (T.challenge (coms.foldl (fun st e => T.absorbRoot st e.2) (PT.challenge st).2)).2 ≠
          (PT.challenge st).1 ^ 2 ^ n →
        ∃ proof, proof.challenge = (PT.challenge st).1 ∧
          VariableOpened L n d c pd.common t proof ∧
          ∀ asserts, placeholderVerify C PT L n asserts d c pd.common proof o0 = some true ∧
            ∀ publicInput, PublicInputOf d c n t publicInput →
              placeholderVerifyPublic C PT L n asserts d c pd.common proof o0 publicInput = some true) := by
  obtain ⟨st, coms, h⟩ := C117_lpc_forgery hS hparts M hM T hprm hsteps hs0 hs1 hcard hdvd hch dfs ff nonce hgrind hN hmax C hC PT hash pd o0 hpre hset
  refine ⟨st, coms, (Finset.range (2 ^ N)).image (L.domain N).elem, Finset.card_image_le.trans (by simp),
    fun hy hth => ?_⟩
  have hy' : ∀ m, (L.domain N).elem m ≠ (PT.challenge st).1 := by
    intro m hm
    refine hy (Finset.mem_image.2 ⟨m % 2 ^ N, Finset.mem_range.2 (Nat.mod_lt _ (by positivity)), ?_⟩)
    rw [← hm]
    show L.root N ^ (m % 2 ^ N) = L.root N ^ m
    conv_rhs => rw [← Nat.mod_add_div m (2 ^ N), pow_add, pow_mul, root_pow_card hS.lib N hprm.adicity, one_pow, mul_one]
  obtain ⟨proof, h1, -, h2, h3⟩ := h (fun k i pts hpts x hx k' => by
    obtain ⟨r, rfl⟩ := requested_rotation (columnsRotations_spec _ _ _ (preprocess_facts hpre).rotations).1 hpts
      k i x hx
    exact outside_of_challenge hS.lib hN hprm.adicity hy' r k') (not_row_of_outside hS.lib hN hprm.adicity hy') hth
  exact ⟨proof, h1, h2, h3⟩

/-! ### an example -/

/-- Nothing but the fixed columns agrees with the circuit of `C65_example`, and the public input is `x`. -/
def exPlonkFalse (x : ZMod 257) : PlonkTable (ZMod 257) :=
  ⟨[[0, 0, 0, 0], [1, 1, 0, 0]], [[x, 0, 0, 0]], [[0, 2, 4, 0]],
    [[1, 1, 0, 0], [1, 1, 0, 0], [0, 1, 1, 0]]⟩

theorem exPlonkFalseSetup (x : ZMod 257) : PlaceholderSetup (FftLib.ofRoots exRoots257) 4 2 (2 ^ 64) exPlonkDesc
    exPlonkCircuit exPlonkOrder (exPlonkFalse x) :=
  { exPlonkSetup with
    fits := ⟨rfl, rfl, rfl, rfl, by simp [PlonkTable.Rectangular, exPlonkFalse], rfl⟩
    gates := by
      intro g hg
      simp only [exPlonkCircuit, List.mem_singleton] at hg
      subst hg
      refine ⟨by simp [exPlonkFalse], ?_⟩
      intro c hc v hv
      simp only [List.mem_singleton] at hc
      subst hc
      simp only [Expr.visitVars, List.mem_append, List.mem_singleton] at hv
      rcases hv with rfl | rfl <;> exact ⟨_, rfl, by simp [exPlonkFalse]⟩
    lookups := by
      refine ⟨fun g hg => ?_, fun tab htab => ?_⟩
      · simp only [exPlonkCircuit, List.mem_singleton] at hg
        subst hg
        refine ⟨by simp [exPlonkFalse], fun c hc e he v hv => ?_⟩
        simp only [List.mem_singleton] at hc
        subst hc
        simp only [List.mem_singleton] at he
        subst he
        simp only [Expr.visitVars, List.mem_singleton] at hv
        subst hv
        exact ⟨_, rfl, by simp [exPlonkFalse]⟩
      · simp only [exPlonkCircuit, List.mem_singleton] at htab
        subst htab
        refine ⟨by simp [exPlonkFalse], fun o ho => ?_⟩
        simp only [List.mem_singleton] at ho
        subst ho
        refine ⟨rfl, fun v hv => ?_⟩
        simp only [List.mem_singleton] at hv
        subst hv
        simp [exPlonkFalse] }

theorem exPlonkUsed (i : Nat) (r : Int) (h : VarUsed exPlonkDesc exPlonkCircuit i r) : r = 0 := by
  obtain ⟨v, hv, -, rfl⟩ := h
  revert v
  decide +kernel

theorem exPlonkFalsePublic (x : ZMod 257) : PublicInputOf exPlonkDesc exPlonkCircuit 2 (exPlonkFalse x) [[x]] where
  sizes := .inr rfl
  fits := by
    intro i xs h
    obtain rfl : i = 0 := by
      have := (List.getElem?_eq_some_iff.1 h).1
      simpa using this
    simp only [List.getElem?_cons_zero, Option.some.injEq] at h
    subst h
    exact ⟨fun _ => by decide, by simp [publicSize, exPlonkCircuit]⟩
  given := by
    intro i xs h
    obtain rfl : i = 0 := by
      have := (List.getElem?_eq_some_iff.1 h).1
      simpa using this
    simp only [List.getElem?_cons_zero, Option.some.injEq] at h
    subst h
    refine ⟨[x, 0, 0, 0], 0, rfl, ⟨.inl rfl, le_rfl, fun r hr => (exPlonkUsed _ _ hr).ge⟩, ?_⟩
    revert x
    decide +kernel

/-- **C117**, an example: the circuit of `C65_example` has a gate, copy constraints and a lookup, and can only be
satisfied with the public input `16` (`exPlonk_unique`). With the keys of the honest table, there is an accepted
proof for every public input, with one part of each argument and with two parts of each. -/
theorem C117_example (x : ZMod 257) (mqc : Nat) (hm : mqc = 0 ∨ mqc = 3) : ∃ (T : PlonkTranscript Nat (ZMod 257) Unit (List (List (ZMod 257))))
    (C : CommScheme (ZMod 257) Nat _ (FriProof (ZMod 257) _ _) _ _), C = lpcComm (FftLib.ofRoots exRoots257)
      (listMerkle (ZMod 257)) exPlonkFri exPlonkParams true 1 0 ∧
    ∃ pd o0 proof,
      placeholderPreprocess C T (FftLib.ofRoots exRoots257) 2 (2 ^ 64) exPlonkDesc exPlonkCircuit
        exPlonkOrder 3 mqc () exPlonkTable LpcScheme.new = some (pd, o0) ∧
      placeholderVerifyPublic C T (FftLib.ofRoots exRoots257) 2 true exPlonkDesc exPlonkCircuit pd.common
        proof o0 [[x]] = some true := by
  have hc : Fintype.card (ZMod 257) = 257 := ZMod.card 257
  let T : PlonkTranscript Nat (ZMod 257) Unit (List (List (ZMod 257))) :=
    ⟨0, fun _ s => s, fun _ s => s, fun k => (5, k + 1)⟩
  have hS := exPlonkFalseSetup x
  have hprm := exPlonkLpc
  have hsteps : checkStepList exPlonkParams.stepList exPlonkParams.r = true := by decide +kernel
  obtain ⟨s0, hs0, hs1⟩ := first_step hprm hsteps
  obtain ⟨pre, hperm, hsome⟩ := C65_preprocessor_succeeds (mqc := mqc) hS (by decide +kernel)
    (hm.imp_right fun h => by rw [h]; decide +kernel) 3
  have hlaws := hasLaws_lpc (L := FftLib.ofRoots exRoots257) (n := 2) 3 (by norm_num)
  have hmax : 2 ^ 2 ≤ exPlonkParams.maxDegree + 1 := by decide
  obtain ⟨pd, o0, -, hpre⟩ := hsome (lpcComm (FftLib.ofRoots exRoots257)
      (listMerkle (ZMod 257)) exPlonkFri exPlonkParams true 1 0) T ()
    (lpcComm_totalSetup hS.lib _ _ hprm hs0 hs1 true 1 0) hlaws hmax
  have hout : ∀ k, ((FftLib.ofRoots exRoots257).domain 3).elem k ≠ 5 := by
    intro k hk
    have := exPlonkDomain_mem k
    rw [hk] at this
    exact absurd this (by decide +kernel)
  have hparts : ∀ p ∈ exPlonkCircuit.lookups.parts mqc, p ≠ 0 := by
    rcases hm with rfl | rfl <;> decide +kernel
  obtain ⟨st, coms, h⟩ := C117_lpc_forgery hS (fun _ => hparts) (listMerkle (ZMod 257)) listMerkle_lawful exPlonkFri hprm hsteps hs0 hs1 hc
    (by decide) (fun _ => show (5 : ZMod 257) ≠ 0 by decide) true 1 0 (by intro h; exact absurd h (by decide))
    (by norm_num) hmax _ rfl T () pd o0 hpre hout
  obtain ⟨proof, -, -, -, hacc⟩ := h (by
    intro k i pts hpts x hx k'
    obtain ⟨r, rfl⟩ := requested_rotation (columnsRotations_spec _ _ _ (preprocess_facts hpre).rotations).1 hpts
      k i x hx
    exact outside_of_challenge hS.lib (by norm_num) hprm.adicity hout r k')
    (show (5 : ZMod 257) ^ 2 ^ 2 ≠ 1 by decide) (show (5 : ZMod 257) ≠ 5 ^ 2 ^ 2 by decide)
  exact ⟨T, _, rfl, pd, o0, proof, hpre, (hacc true).2 _ (exPlonkFalsePublic x)⟩

end Crypto3Zk
