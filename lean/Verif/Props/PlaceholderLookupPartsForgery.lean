import Verif.Lemmas.LookupPartsForgery
import Verif.Props.PlaceholderPartsForgery
import Verif.Props.PlaceholderKzgLookupForgery

/-!
# C66: placeholder with the lookup argument in several parts

As with the permutation argument (`Props/PlaceholderPartsForgery`): the challenges for the parts are drawn before the
prover commits to the running product and the partial products (lookup_argument.hpp:203-206, 749-752; prover.hpp:156-172).
-/

set_option linter.unusedSectionVars false

namespace Crypto3Zk

open Polynomial

variable {F : Type} [Field F] [DecidableEq F]
variable {L : FftLib F} {A n fuel : Nat} {d : TableDesc} {c : Circuit F} {order : List PlonkVar}
  {t : PlonkTable F} {delta : F} {mqc : Nat} {pre : PermData F}

/-- **C66**, finding: the lookup argument in several parts does not prove the lookups. For every circuit without copy
constraints whose limit on the chunks of the quotient splits the lookup argument, with no part empty, every table that
satisfies the gates (and may violate the lookups), every transcript and every commitment scheme that lets provers open
what they committed to, there is a proof that is accepted, also with assertions and with the public inputs of the
table. Excluded are one value of each of the challenges `beta` and `gamma`, one value of the last of the challenges for
the parts, and points that are exceptional for the scheme. -/
theorem C66_lookup_parts_forgery (hS : PlaceholderSetup L A n fuel d c order t) (hcop : c.copies = [])
    (hlk : c.lookups.gates ≠ []) {k : Nat} (hk : (c.lookups.parts mqc).length = k + 2)
    (hne : ∀ p ∈ c.lookups.parts mqc, p ≠ 0) (hgates : GatesHold t c.gates d.usableRows)
    (hperm : permPreprocess L n fuel d c.copies order delta mqc = some pre) :
    ∃ badAlpha : F → F → F → Finset F, (∀ a b g, (badAlpha a b g).card ≤ 1) ∧
      ∀ {S H Com Pr Data Obj : Type} {C : CommScheme F S Com Pr Data Obj} {T : PlonkTranscript S F H Com}
        {hash : H} {pd : PublicData F H Com Data} {o0 : Obj} {Has : FriPoly F → List F → Prop} {maxLen : Nat}
        {okPoints : F → List F → Prop} {okSetup : S → Prop}, C.Total Has maxLen →
        (∀ y, C.Opens Has maxLen (okPoints y) okSetup) → (∀ y, C.Complete Has maxLen (okPoints y) okSetup) →
        C.RootLaws → HasLaws L n Has → 2 ^ n ≤ maxLen →
        placeholderPreprocess C T L n fuel d c order delta mqc hash t C.new = some (pd, o0) →
        okSetup (T.key pd.common.hash pd.common.fixedCommitment) →
        ∃ (vcom lcom qcom : Com) (stq : S), ∀ st1 st2 st,
          st1 = T.absorb vcom (C.setup o0 (T.key pd.common.hash pd.common.fixedCommitment) pd.common.schemeData).1 →
          st2 = T.absorb lcom (T.challenge st1).2 →
          st = T.absorb qcom stq →
          (T.challenge st2).1 ≠ -1 → (T.challenge (T.challenge st2).2).1 ≠ 0 →
          (drawN T.challenge (k + 1) (T.challenge (T.challenge st2).2).2).1.getLastD 0 ∉
            badAlpha (T.challenge st1).1 (T.challenge st2).1 (T.challenge (T.challenge st2).2).1 →
          (∀ k i pts, verifierPoints L n d c pd.common (T.challenge st).1 = some pts →
            okPoints (T.challenge st).1 (lpcRequested k i pts)) →
          ∃ proof, proof.challenge = (T.challenge st).1 ∧ VariableOpened L n d c pd.common t proof ∧
            ∀ asserts, placeholderVerify C T L n asserts d c pd.common proof o0 = some true ∧
              ((∀ k < 2 ^ n, proof.challenge ≠ L.root n ^ k) → ∀ publicInput, PublicInputOf d c n t publicInput →
                placeholderVerifyPublic C T L n asserts d c pd.common proof o0 publicInput = some true) := by
  have hL := hS.lib
  have hn := hS.small
  have hu : d.usableRows < 2 ^ n := hS.rows ▸ hS.usable
  obtain ⟨s1, s2, s3, s4, q1, q2, q3, s8, s9, s10, s11, s12, s13⟩ := permPreprocess_shape hL hn hperm
  have hzero' : pre.parts = 0 := by
    rw [order_nil hS hcop] at s13
    simpa [permutationParts] using s13.symm
  have hmq : (lookupData pre).mqc = mqc := s12
  obtain ⟨badAlpha, hba, hforge⟩ := lookupVerify_parts_forged (hS.lookupSetup_of hperm hlk) (by rw [hmq]; exact hne)
    (by rw [hmq]; exact lookup_parts_sum hlk) (k := k) (by rw [hmq]; exact hk)
  refine ⟨badAlpha, hba, ?_⟩
  intro S H Com Pr Data Obj C T hash pd o0 Has maxLen okPoints okSetup hT hO hC hR hH hmax hpre hset
  have hp := preprocess_facts hpre
  obtain rfl : pd.perm = pre := Option.some_inj.1 (hp.perm.symm.trans hperm)
  let m := c.lookups.inputCount + c.lookups.optionCount
  let s0 := C.setup o0 (T.key pd.common.hash pd.common.fixedCommitment) pd.common.schemeData
  let zeros : List F := List.replicate (2 ^ n) 0
  -- the transcript
  let st1 := fun v : Com => T.absorb v s0.1
  let st2 := fun (v : Com) (l : Option Com) => l.elim (T.challenge (st1 v)).2 (T.absorb · (T.challenge (st1 v)).2)
  let theta := fun v => (T.challenge (st1 v)).1
  let beta := fun v l => (T.challenge (st2 v l)).1
  let gamma := fun v l => (T.challenge (T.challenge (st2 v l)).2).1
  let alphas := fun v l => drawN T.challenge (k + 1) (T.challenge (T.challenge (st2 v l)).2).2
  let st3 := fun v l => (drawN T.challenge (m - 1) (alphas v l).2).2
  let Good := fun v l => beta v l ≠ -1 ∧ gamma v l ≠ 0 ∧
    (alphas v l).1.getLastD 0 ∉ badAlpha (theta v) (beta v l) (gamma v l)
  let st4 := fun (v : Com) (l p : Option Com) => p.elim (st3 v l) (T.absorb · (st3 v l))
  choose fg hfg hfz using fun st => C34_complete hS.gateSetup hgates T.challenge st
  have hstrat : ∀ v l, ∃ (V : List F) (partitions : List (List F)) (f0 f1 f2 f3 : F[X]), V.length = 2 ^ n ∧
      (∀ p ∈ partitions, p.length = 2 ^ n) ∧ partitions.length = k + 1 ∧ (Good v (some l) →
        PolyVanishesOnRows L n f0 ∧ PolyVanishesOnRows L n f1 ∧ PolyVanishesOnRows L n f2 ∧
        PolyVanishesOnRows L n f3 ∧ ∀ y ev, TrueLookupEvaluations L n t c.lookups y ev →
          lookupVerify T.challenge T.absorb l c.lookups mqc ev
            (trueLookupClaims L n (lookupData pd.perm) (List.replicate m zeros) V partitions y) (st1 v) =
            some ((f0.eval y, f1.eval y, f2.eval y, f3.eval y), st3 v (some l))) := by
    intro v l
    by_cases hg : Good v (some l)
    · have hal : (alphas v (some l)).1.length = k + 1 := length_drawN _ _ _
      have hnil : (alphas v (some l)).1 ≠ [] := by
        intro h
        rw [h] at hal
        simp at hal
      obtain ⟨V, partitions, h1, h2, h3, f0, f1, f2, f3, v0, v1, v2, v3, h4⟩ := hforge (theta v) (beta v (some l))
        (gamma v (some l)) (alphas v (some l)).1.dropLast ((alphas v (some l)).1.getLastD 0) (by simp [hal]) hg.1 hg.2.1
        hg.2.2
      refine ⟨V, partitions, f0, f1, f2, f3, h1, h2, h3, fun _ => ⟨v0, v1, v2, v3, fun y ev hev => ?_⟩⟩
      rw [hmq] at h4
      refine h4 S Com T.challenge T.absorb l (st1 v) y ev hev rfl rfl rfl ?_
      show (alphas v (some l)).1 = _
      rw [List.getLastD_eq_getLast?, List.getLast?_eq_some_getLast hnil]
      exact (List.dropLast_append_getLast hnil).symm
    · exact ⟨zeros, List.replicate (k + 1) zeros, 0, 0, 0, 0, by simp [zeros],
        fun p hp => by rw [(List.mem_replicate.1 hp).2]; simp [zeros], by simp, fun h => absurd h hg⟩
  choose V partitions f0 f1 f2 f3 hVl hpl hpn hgood using hstrat
  let f := fun v l st => consolidate [0, 0, 0, f0 v l, f1 v l, f2 v l, f3 v l, fg st]
    (drawN T.challenge 8 (T.challenge st).2).1
  have hchunks : ∀ v l st, ∃ chunks : List (List F), (∀ x ∈ chunks, x.length ≤ 2 ^ n) ∧ (Good v (some l) → ∀ y,
      (f v l st).eval y =
        evalPoly (vanishingCoeffs (2 ^ n)) y * consolidateQuotient (chunks.map (evalPoly · y)) (2 ^ n) y) := by
    intro v l st
    by_cases hg : Good v (some l)
    · obtain ⟨chunks, h1, h2⟩ := quotient_split hL hn (f v l st) (by
        apply consolidate_vanishes
        intro g hgm
        obtain ⟨v0, v1, v2, v3, -⟩ := hgood v l hg
        simp only [List.mem_cons, List.not_mem_nil, or_false] at hgm
        rcases hgm with rfl | rfl | rfl | rfl | rfl | rfl | rfl | rfl
        iterate 3 exact fun j hj => eval_zero
        · exact v0
        · exact v1
        · exact v2
        · exact v3
        exact hfz st)
      exact ⟨chunks, h1, fun _ => h2⟩
    · exact ⟨[], by simp, fun h => absurd h hg⟩
  choose chunks hck hcheq using hchunks
  let P : ProverStrategy F Com :=
    { perm := fun _ => []
      sorted := fun _ => List.replicate m zeros
      vl := fun v l => l.elim [zeros] fun l => V v l :: partitions v l
      chunks := fun v l p => l.elim [] fun l => chunks v l (st4 v (some l) p) }
  have hP : P.Fits n c pd.perm.parts :=
    { permLen := by intro v p h; simp [P] at h
      sortedLen := by
        intro v p h
        rw [(List.mem_replicate.1 h).2]; simp [zeros]
      vlLen := by
        intro v l p h
        cases l with
        | none => simp only [P, Option.elim_none, List.mem_singleton] at h; simp [h, zeros]
        | some l =>
          rcases List.mem_cons.1 h with e | e
          · rw [e]; exact hVl v l
          · exact hpl v l p e
      chunksLen := by
        intro v l p
        cases l with
        | none => intro x hx; simp [P] at hx
        | some l => exact hck _ _ _
      copies := by intro v; simp [P, hcop]
      parts := by intro v; simp [P, hzero']
      lookups := by intro v l; cases l <;> simp [P, hlk]
      noLookups := by intro v h; exact absurd h hlk }
  obtain ⟨vcom, lcom, pcom, qcom, hlc, hpc, -, -, hmain⟩ := any_prover_committed (okPoints := okPoints) hT hO hC hR hH
    hmax hS hp hset P hP
    (fun v l p q => T.challenge (T.absorb q (drawN T.challenge 8 (T.challenge (st4 v l p)).2).2))
  obtain ⟨l, rfl⟩ := hlc hlk
  obtain ⟨p, rfl⟩ := hpc (.inr hlk)
  refine ⟨vcom, l, qcom, (drawN T.challenge 8 (T.challenge (st4 vcom (some l) (some p))).2).2,
    fun x1 x2 x3 hx1 hx2 hx3 hbe hga hal hok => ?_⟩
  subst hx1 hx2 hx3
  have hG : Good vcom (some l) := ⟨hbe, hga, hal⟩
  obtain ⟨e, hz, pts, w, st', hpts, hw, hver⟩ := hmain hok
  set y := T.challenge (T.absorb qcom (drawN T.challenge 8 (T.challenge (st4 vcom (some l) (some p))).2).2) with hy
  obtain ⟨c1, c2, c3, c4, -, -⟩ := find_proofCommitments vcom (some l) (some p) qcom
  obtain ⟨k0, hm1, hm2⟩ := hz.permSize
  obtain ⟨ev, hev1, hev2⟩ := hz.columnsAtY_eq
  obtain ⟨hte, htl⟩ := hS.evaluations hp hev2
  obtain ⟨hq1, hq2⟩ := hz.quotient
  obtain ⟨-, -, -, -, hver2⟩ := hgood vcom l hG
  have hacc : ∀ asserts, placeholderVerify C T L n asserts d c pd.common
      ⟨proofCommitments vcom (some l) (some p) qcom, y.1, e⟩ o0 = some true := by
    intro asserts
    have eperm : (if c.copies.length > 0 then do
        let claims ← readPermClaims e.1 d pd.common pd.common.permutedColumns.length
          (evalPoly pd.perm.qLast y.1) (evalPoly pd.perm.qBlind y.1)
        permVerify T.challenge pd.perm.lagrange0 pd.common.mqc pd.common.permutationParts claims y.1
          (T.absorb vcom s0.1)
      else some ((0, 0, 0), T.absorb vcom s0.1)) = some ((0, 0, 0), st1 vcom) := if_neg (by simp [hcop])
    have elook : (if c.lookups.gates.length > 0 then do
        let claims ← readLookupClaims e.1 pd.common (evalPoly pd.perm.lagrange0 y.1)
          (evalPoly pd.perm.qLast y.1) (evalPoly pd.perm.qBlind y.1)
        let lcom ← (proofCommitments vcom (some l) (some p) qcom).find LOOKUP_BATCH
        lookupVerify T.challenge T.absorb lcom c.lookups pd.common.mqc ev claims (st1 vcom)
      else some ((0, 0, 0, 0), st1 vcom)) = some (((f0 vcom l).eval y.1, (f1 vcom l).eval y.1,
        (f2 vcom l).eval y.1, (f3 vcom l).eval y.1), st3 vcom (some l)) := by
      have hcl := hz.lookupClaims (common := pd.common) (mqc := mqc) (V := V vcom l) (partitions := partitions vcom l)
        hp.parts (hP.parts _) rfl hp.lookupParts rfl (by rw [hpn, hk]; rfl) hlk s11
      rw [if_pos (List.length_pos_iff.2 hlk), hcl, c2]
      simp only [Option.bind_eq_bind, Option.bind_some]
      rw [hp.mqcEq]
      exact hver2 y.1 ev (htl hlk)
    have epc : (if c.copies.length > 0 ∨ c.lookups.gates.length > 0 then do
        let pcom ← (proofCommitments vcom (some l) (some p) qcom).find PERMUTATION_BATCH
        some (T.absorb pcom (st3 vcom (some l)))
      else some (st3 vcom (some l))) = some (st4 vcom (some l) (some p)) := by
      rw [if_pos (.inr (List.length_pos_iff.2 hlk)), c3]
      rfl
    have egate : gateVerify T.challenge c.gates ev
        (1 - evalPoly pd.perm.qLast y.1 - evalPoly pd.perm.qBlind y.1) (st4 vcom (some l) (some p)) =
        some ((fg (st4 vcom (some l) (some p))).eval y.1, (T.challenge (st4 vcom (some l) (some p))).2) := by
      have := C33_gates hS.gateSetup T.challenge _ _ _ _ (hfg (st4 vcom (some l) (some p))) y.1 ev hte
      rw [← this]
      congr 1
      rw [q1, q2]
      simp [rowMask, gateMask, dfsPoly, eval_toPoly]
    unfold placeholderVerify
    refine bind_step c1 ?_
    refine bind_step hz.qLast.1 ?_
    refine bind_step hz.qBlind.1 ?_
    refine bind_step hm1 ?_
    rw [hm2, hp.lagrange0]
    refine ite_step eperm ?_
    refine bind_step hev1 ?_
    refine ite_step2 elook ?_
    refine ite_step epc ?_
    refine bind_step egate ?_
    refine bind_step c4 ?_
    refine (if_neg (by simp [hy])).trans ?_
    refine bind_step hz.sizes ?_
    refine bind_step hpts ?_
    refine bind_step hw ?_
    refine bind_step hver ?_
    refine (if_pos rfl).trans ?_
    refine bind_step hq1 ?_
    refine bind_step hq2 ?_
    show some (decide _) = some true
    rw [hp.desc, hS.rows, hp.Z, Option.some_inj, decide_eq_true_iff]
    have h1 := verifier_consolidate [0, 0, 0, f0 vcom l, f1 vcom l, f2 vcom l, f3 vcom l, fg (st4 vcom (some l) (some p))]
      (drawN T.challenge 8 (T.challenge (st4 vcom (some l) (some p))).2).1 y.1
    simp only [List.map_cons, List.map_nil, eval_zero] at h1
    rw [h1]
    exact hcheq vcom l (st4 vcom (some l) (some p)) hG y.1
  have hopen : VariableOpened L n d c pd.common t ⟨proofCommitments vcom (some l) (some p) qcom, y.1, e⟩ := by
    intro pts' hpts'
    have hrl := (columnsRotations_spec d c _ hp.rotations).1
    rw [verifierPoints_eq L n d c pd.common _ hrl, hp.parts, hp.desc, Option.some_inj] at hpts'
    have hf := hz.find VARIABLE_BATCH (Or.inr (Or.inl rfl))
    refine hf.trans ?_
    rw [← hpts', Option.some_inj]
    simp only [VARIABLE_BATCH, honestPolys]
    rw [← List.map_append]
    apply List.ext_getElem (by simp)
    intro i h1 h2
    simp only [List.getElem_mapIdx, List.getElem_map]
    refine List.map_congr_left fun x _ => ?_
    rw [dfsPoly, eval_toPoly]
  refine ⟨_, rfl, hopen, fun asserts => ⟨hacc asserts, fun hrow publicInput hpi => ?_⟩⟩
  rw [C38_verdict hL hS.small hS.rows asserts publicInput fun i xs hi => (hpi.fits i xs hi).2]
  refine ⟨hpi.sizes, hacc asserts, ?_⟩
  intro i xs hi
  obtain ⟨col, r, hcol, hrr, hrot⟩ := hpi.given i xs hi
  have hlen : col.length = 2 ^ n := hS.fits.rect.2.1 col (List.mem_of_getElem? hcol)
  refine ⟨(hpi.fits i xs hi).1, fun k hk => hrow k (hk.trans_le (hpi.fits i xs hi).2), ?_⟩
  rw [first_claim hpre hS.fits.witness hS.fits.publicInput hcol hrr hopen, hrot,
    dfsPoly_rotate hL hS.small r col hlen]

/-! ## over KZG -/

section kzg

variable {F : Type} [Field F] [LinearOrder F] {L : FftLib F} {A n fuel : Nat} {d : TableDesc} {c : Circuit F}
  {order : List PlonkVar} {t : PlonkTable F} {delta : F} {mqc : Nat} {pre : PermData F}

/-- **C66** and **C102**, finding: `C66_lookup_parts_forgery` over KZG, with exactly as many values in the proof as there are
polynomials. The only exceptional point is zero. -/
theorem C102_kzg_lookup_parts_forgery (hS : PlaceholderSetup L A n fuel d c order t) (hcop : c.copies = [])
    (hlk : c.lookups.gates ≠ []) {k : Nat} (hk : (c.lookups.parts mqc).length = k + 2)
    (hne : ∀ p ∈ c.lookups.parts mqc, p ≠ 0) (hgates : GatesHold t c.gates d.usableRows) (hn : 1 ≤ n)
    (hr : RotationsDistinct n d c) (hu : 2 ≤ d.usableRows)
    (hperm : permPreprocess L n fuel d c.copies order delta mqc = some pre) :
    ∃ badAlpha : F → F → F → Finset F, (∀ a b g, (badAlpha a b g).card ≤ 1) ∧
      ∀ {S H G1 G2 GT : Type} [AddCommGroup G1] [Module F G1] [AddCommGroup G2] [Module F G2]
        [AddCommGroup GT] [Module F GT] [DecidableEq GT] (P : Pairing F G1 G2 GT) (dk tk : Nat) (alpha : F)
        (codec : PointCodec G1), codec.Lawful → 2 ^ n ≤ dk → 2 ^ n ≤ tk → ∀ (KT : KzgTranscript S F)
        (T : PlonkTranscript S F H (List UInt8)) (hash : H) (C : CommScheme F S (List UInt8) G1 Bool (KzgScheme F)),
        C = kzgComm L P (batchedKzgSetup P dk tk alpha) codec KT →
        ∀ (pd : PublicData F H (List UInt8) Bool) (o0 : KzgScheme F),
        placeholderPreprocess C T L n fuel d c order delta mqc hash t C.new = some (pd, o0) →
        ∃ (vcom lcom qcom : List UInt8) (stq : S), ∀ st1 st2 st,
          st1 = T.absorb vcom (C.setup o0 (T.key pd.common.hash pd.common.fixedCommitment) pd.common.schemeData).1 →
          st2 = T.absorb lcom (T.challenge st1).2 →
          st = T.absorb qcom stq →
          (T.challenge st2).1 ≠ -1 → (T.challenge (T.challenge st2).2).1 ≠ 0 →
          (drawN T.challenge (k + 1) (T.challenge (T.challenge st2).2).2).1.getLastD 0 ∉
            badAlpha (T.challenge st1).1 (T.challenge st2).1 (T.challenge (T.challenge st2).2).1 →
          (T.challenge st).1 ≠ 0 →
          ∃ proof, proof.challenge = (T.challenge st).1 ∧ VariableOpened L n d c pd.common t proof ∧
            ∀ asserts, placeholderVerify C T L n asserts d c pd.common proof o0 = some true ∧
              ((∀ k < 2 ^ n, proof.challenge ≠ L.root n ^ k) → ∀ publicInput, PublicInputOf d c n t publicInput →
                placeholderVerifyPublic C T L n asserts d c pd.common proof o0 publicInput = some true) := by
  obtain ⟨badAlpha, h2, h⟩ := C66_lookup_parts_forgery hS hcop hlk hk hne hgates hperm
  refine ⟨badAlpha, h2, ?_⟩
  intro S H G1 G2 GT _ _ _ _ _ _ _ P dk tk alpha codec hcodec hdk htk KT T hash C hC pd o0 hpre
  subst hC
  have hL := hS.lib
  have hp := preprocess_facts hpre
  have hdk0 : 0 < dk := lt_of_lt_of_le (by positivity) hdk
  obtain ⟨vcom, lcom, qcom, stq, hv⟩ := h (okPoints := fun y xs => KzgPoints dk (challengeCoset L n y) xs) (okSetup := fun _ => True)
    (kzgComm_total (P := P) (t := tk) (alpha := alpha) (codec := codec) hL hdk0 KT)
    (fun y => kzgComm_opens hL hcodec KT ((challengeCoset_card y).trans htk) hdk0)
    (fun y => kzgComm_complete hL hcodec KT ((challengeCoset_card y).trans htk) hdk0)
    (kzgComm_rootLaws (L := L) (P := P) (codec := codec) KT (batchedKzgSetup P dk tk alpha))
    (hasLaws_lpc A hS.small) hdk hpre trivial
  refine ⟨vcom, lcom, qcom, stq, fun st1 st2 st e1 e2 e3 hb hg ha hy0 => hv st1 st2 st e1 e2 e3 hb hg ha
    fun k i pts hpts => ?_⟩
  have hnd := requested_nodup hS hp hn hr (fun _ => hu) hy0 hpts k i
  have hsub : ∀ x ∈ lpcRequested k i pts, x ∈ challengeCoset L n (T.challenge st).1 := by
    intro x hx
    obtain ⟨r, rfl⟩ := requested_rotation (columnsRotations_spec d c _ hp.rotations).1 hpts k i x hx
    exact mem_challengeCoset hL hS.small hy0 r
  refine ⟨hnd, ?_, hsub⟩
  rw [← List.toFinset_card_of_nodup hnd]
  exact (Finset.card_le_card fun x hx => hsub x (List.mem_toFinset.1 hx)).trans ((challengeCoset_card _).trans hdk)

end kzg

/-- **C66**, an example of `C66_lookup_parts_forgery`: with a limit of three chunks the lookup argument has two parts.
The public input `9` is the square of `3` and `-3` only, neither of which is in the lookup table `2, 4`, and no witness
satisfies the circuit (`C102_lookup_example`); yet there is a transcript with which a proof for it is accepted over KZG,
with assertions, for every trapdoor. -/
theorem C66_lookup_parts_example : ∃ T : PlonkTranscript Nat (ZMod 257) Unit (List UInt8),
    ∀ (alpha : ZMod 257) (KT : KzgTranscript Nat (ZMod 257))
      (C : CommScheme (ZMod 257) Nat (List UInt8) (ZMod 257) Bool (KzgScheme (ZMod 257))),
      C = kzgComm (FftLib.ofRoots exRoots257) exPairing257 (batchedKzgSetup exPairing257 4 4 alpha) exCodec257 KT →
      ∃ pd o0 proof,
        placeholderPreprocess C T (FftLib.ofRoots exRoots257) 2 (2 ^ 64) exListedDesc exListedCircuit [] 3 3 ()
          (exListedTable 3 0 0 0) C.new = some (pd, o0) ∧
        placeholderVerifyPublic C T (FftLib.ofRoots exRoots257) 2 true exListedDesc exListedCircuit pd.common
          proof o0 [[9]] = some true := by
  obtain ⟨pre, hperm, hpp⟩ := C65_preprocessor_succeeds (mqc := 3) exListedSetup (by decide +kernel)
    (.inr (by decide +kernel)) 3
  have hgates : GatesHold (exListedTable 3 0 0 0) exListedCircuit.gates 3 := by
    intro j hj g hg hs c hc
    simp only [exListedCircuit, List.mem_singleton] at hg
    subst hg
    simp only [List.mem_singleton] at hc
    subst hc
    interval_cases j
    · decide +kernel
    · exact absurd rfl hs
    · exact absurd rfl hs
  obtain ⟨badAlpha, hba, h⟩ := C102_kzg_lookup_parts_forgery (k := 0) (mqc := 3) exListedSetup rfl
    (by simp [exListedCircuit]) (by decide +kernel) (by decide +kernel) hgates (by norm_num) exListedRotations
    (by decide) hperm
  have hcard : (Finset.univ : Finset (ZMod 257)).card = 257 := by rw [Finset.card_univ, ZMod.card]
  obtain ⟨a, ha⟩ : ∃ a, a ∉ badAlpha 5 5 7 := by
    by_contra hcon
    push Not at hcon
    have h1 := Finset.card_le_card (fun a _ => hcon a : (Finset.univ : Finset (ZMod 257)) ⊆ badAlpha 5 5 7)
    have h2 := hba 5 5 7
    omega
  obtain ⟨T, hT⟩ : ∃ T : PlonkTranscript Nat (ZMod 257) Unit (List UInt8),
      T = ⟨0, fun _ s => s, fun _ _ => 0, fun s => (if s = 0 then 5 else if s = 1 then 7 else a, s + 1)⟩ := ⟨_, rfl⟩
  refine ⟨T, ?_⟩
  intro alpha KT C hC
  obtain ⟨pd, o0, -, hpre⟩ := hpp C T () (Has := fun f c => f.Has (FftLib.ofRoots exRoots257) 4 c) (maxLen := 4)
    (by rw [hC]; exact kzgComm_totalSetup exLib257_lawful (by norm_num) KT)
    (hasLaws_lpc 4 (by norm_num)) (by norm_num)
  obtain ⟨vcom, lcom, qcom, stq, hv⟩ := h exPairing257 4 4 alpha exCodec257 exCodec257_lawful (by norm_num)
    (by norm_num) KT T () C hC pd o0 hpre
  obtain ⟨proof, hy, -, hacc⟩ := hv 0 0 0 (by rw [hT]) (by rw [hT]) (by rw [hT])
    (by rw [hT]; exact (show (5 : ZMod 257) ≠ -1 by decide)) (by rw [hT]; exact (show (7 : ZMod 257) ≠ 0 by decide))
    (by simpa [hT, drawN] using ha) (by rw [hT]; exact (show (5 : ZMod 257) ≠ 0 by decide))
  refine ⟨pd, o0, proof, hpre, (hacc true).2 (fun k _ hk => ?_) _ exListedPublic⟩
  have h5 : (5 : ZMod 257) ^ 4 ≠ 1 := by decide
  apply h5
  have hy' : proof.challenge = 5 := by rw [hy, hT]; rfl
  rw [← hy', hk, ← pow_mul, mul_comm, pow_mul]
  have : (FftLib.ofRoots exRoots257).root 2 ^ 4 = 1 := by decide
  rw [this, one_pow]

end Crypto3Zk
