import Verif.Lemmas.PartsForgery
import Verif.Props.PlaceholderKzgForgery

/-!
# C66: placeholder with the permutation argument in several parts

`C66_soundness_partial` is about one part of each argument. With several parts the verifier draws a challenge
for each part but the last before the prover commits to the running product (permutation_argument.hpp:174-177, 293-296;
prover.hpp:156-172), and only their random combination is checked. The forgery of the argument (C32) carries over to
whole proofs, with every commitment scheme and with assertions.
-/

set_option linter.unusedSectionVars false

namespace Crypto3Zk

open Polynomial

variable {F : Type} [Field F] [DecidableEq F]
variable {L : FftLib F} {A n fuel : Nat} {d : TableDesc} {c : Circuit F} {order : List PlonkVar}
  {t : PlonkTable F} {delta : F} {mqc : Nat} {pre : PermData F}

/-- **C66**, finding: the permutation argument in several parts does not prove the copy constraints. For every circuit
without lookups whose limit on the chunks of the quotient splits the permutation argument, every table that satisfies
the gates (and may violate the copy constraints), every transcript and every commitment scheme that lets provers open
what they committed to, there is a proof that is accepted, also with assertions and with the public inputs of the
table. Excluded are at most one value of the second challenge for each column with copy constraints, one value of the
last of the challenges for the parts, and points that are exceptional for the scheme. -/
theorem C66_parts_forgery (hS : PlaceholderSetup L A n fuel d c order t) (hcop : c.copies ≠ [])
    (hlk : c.lookups.gates = []) {k : Nat} (hk : permutationParts order.length mqc = some (k + 2))
    (hgates : GatesHold t c.gates d.usableRows)
    (hperm : permPreprocess L n fuel d c.copies order delta mqc = some pre) :
    ∃ (badGamma : F → Finset F) (badAlpha : F → F → Finset F), (∀ b, (badGamma b).card ≤ order.length) ∧
      (∀ b g, (badAlpha b g).card ≤ 1) ∧
      ∀ {S H Com Pr Data Obj : Type} {C : CommScheme F S Com Pr Data Obj} {T : PlonkTranscript S F H Com}
        {hash : H} {pd : PublicData F H Com Data} {o0 : Obj} {Has : FriPoly F → List F → Prop} {maxLen : Nat}
        {okPoints : F → List F → Prop} {okSetup : S → Prop}, C.Total Has maxLen →
        (∀ y, C.Opens Has maxLen (okPoints y) okSetup) → (∀ y, C.Complete Has maxLen (okPoints y) okSetup) →
        C.RootLaws → HasLaws L n Has → 2 ^ n ≤ maxLen →
        placeholderPreprocess C T L n fuel d c order delta mqc hash t C.new = some (pd, o0) →
        okSetup (T.key pd.common.hash pd.common.fixedCommitment) →
        ∃ (vcom qcom : Com) (stq : S), ∀ st1 st,
          st1 = T.absorb vcom (C.setup o0 (T.key pd.common.hash pd.common.fixedCommitment) pd.common.schemeData).1 →
          st = T.absorb qcom stq →
          (T.challenge (T.challenge st1).2).1 ∉ badGamma (T.challenge st1).1 →
          (drawN T.challenge (k + 1) (T.challenge (T.challenge st1).2).2).1.getLastD 0 ∉
            badAlpha (T.challenge st1).1 (T.challenge (T.challenge st1).2).1 →
          (∀ k i pts, verifierPoints L n d c pd.common (T.challenge st).1 = some pts →
            okPoints (T.challenge st).1 (lpcRequested k i pts)) →
          ∃ proof, proof.challenge = (T.challenge st).1 ∧ VariableOpened L n d c pd.common t proof ∧
            ∀ asserts, placeholderVerify C T L n asserts d c pd.common proof o0 = some true ∧
              ((∀ k < 2 ^ n, proof.challenge ≠ L.root n ^ k) → ∀ publicInput, PublicInputOf d c n t publicInput →
                placeholderVerifyPublic C T L n asserts d c pd.common proof o0 publicInput = some true) := by
  have hL := hS.lib
  have hn := hS.small
  have hu : d.usableRows < 2 ^ n := hS.rows ▸ hS.usable
  obtain ⟨s1, s2, s3, s4, q1, q2, q3, s8, s9, s10, s11, s12, s13⟩ := permPreprocess_shape hL hn hperm
  have hk' : pre.parts = k + 2 := Option.some_inj.1 (s13.symm.trans hk)
  obtain ⟨gi, hgi⟩ : ∃ gi, permutedIndices d order = some gi := by
    unfold permPreprocess at hperm
    obtain ⟨_, -, h⟩ := Option.bind_eq_some_iff.1 hperm
    obtain ⟨gi, hgi, -⟩ := Option.bind_eq_some_iff.1 h
    exact ⟨gi, hgi⟩
  obtain ⟨cols, hcols, hcl, hcb⟩ := hS.permutedCols hgi
  obtain ⟨badGamma, badAlpha, hbg, hba, hforge⟩ := permVerify_parts_forged hL hn s1 s2 q1 q2 q3 s10 hu (s12 ▸ s13) hk'
    cols hcl
  refine ⟨badGamma, badAlpha, hbg, hba, ?_⟩
  intro S H Com Pr Data Obj C T hash pd o0 Has maxLen okPoints okSetup hT hO hC hR hH hmax hpre hset
  have hp := preprocess_facts hpre
  obtain rfl : pd.perm = pre := Option.some_inj.1 (hp.perm.symm.trans hperm)
  obtain rfl : pd.common.permutedColumns = gi := Option.some_inj.1 (hp.indices.symm.trans hgi)
  have hgl : pd.common.permutedColumns.length = order.length := length_mapM _ _ _ hp.indices
  let s0 := C.setup o0 (T.key pd.common.hash pd.common.fixedCommitment) pd.common.schemeData
  -- the transcript
  let st1 := fun v : Com => T.absorb v s0.1
  let beta := fun v => (T.challenge (st1 v)).1
  let gamma := fun v => (T.challenge (T.challenge (st1 v)).2).1
  let alphas := fun v => drawN T.challenge (k + 1) (T.challenge (T.challenge (st1 v)).2).2
  let Good := fun v => gamma v ∉ badGamma (beta v) ∧ (alphas v).1.getLastD 0 ∉ badAlpha (beta v) (gamma v)
  let st3 := fun (v : Com) (p : Option Com) => p.elim (alphas v).2 (T.absorb · (alphas v).2)
  choose fg hfg hfz using fun st => C34_complete hS.gateSetup hgates T.challenge st
  have hstrat : ∀ v, ∃ (V : List F) (partitions : List (List F)) (f0 f1 f2 : F[X]), V.length ≤ 2 ^ n ∧
      (∀ p ∈ partitions, p.length ≤ 2 ^ n) ∧ partitions.length = k + 1 ∧ (Good v →
        PolyVanishesOnRows L n f0 ∧ PolyVanishesOnRows L n f1 ∧ PolyVanishesOnRows L n f2 ∧
        ∀ y, permVerify T.challenge pd.perm.lagrange0 pd.perm.mqc pd.perm.parts
          (trueClaims L n pd.perm cols V partitions y) y (st1 v) =
            some ((f0.eval y, f1.eval y, f2.eval y), (alphas v).2)) := by
    intro v
    by_cases hg : Good v
    · have hal : (alphas v).1.length = k + 1 := length_drawN _ _ _
      have hne : (alphas v).1 ≠ [] := by
        intro h
        rw [h] at hal
        simp at hal
      obtain ⟨V, partitions, h1, h2, h3, f0, f1, f2, v0, v1, v2, h4⟩ := hforge (beta v) (gamma v) (alphas v).1.dropLast
        ((alphas v).1.getLastD 0) (by simp [hal]) hg.1 hg.2
      refine ⟨V, partitions, f0, f1, f2, h1, h2, h3, fun _ => ⟨v0, v1, v2, fun y => ?_⟩⟩
      refine h4 S T.challenge (st1 v) y rfl rfl ?_
      show (alphas v).1 = _
      rw [List.getLastD_eq_getLast?, List.getLast?_eq_some_getLast hne]
      exact (List.dropLast_append_getLast hne).symm
    · exact ⟨[], List.replicate (k + 1) [], 0, 0, 0, by simp, fun p hp => by rw [(List.mem_replicate.1 hp).2]; simp,
        by simp, fun h => absurd h hg⟩
  choose V partitions f0 f1 f2 hVl hpl hpn hgood using hstrat
  let f := fun v st => consolidate [f0 v, f1 v, f2 v, 0, 0, 0, 0, fg st] (drawN T.challenge 8 (T.challenge st).2).1
  have hchunks : ∀ v st, ∃ chunks : List (List F), (∀ x ∈ chunks, x.length ≤ 2 ^ n) ∧ (Good v → ∀ y, (f v st).eval y =
      evalPoly (vanishingCoeffs (2 ^ n)) y * consolidateQuotient (chunks.map (evalPoly · y)) (2 ^ n) y) := by
    intro v st
    by_cases hg : Good v
    · obtain ⟨chunks, h1, h2⟩ := quotient_split hL hn (f v st) (by
        apply consolidate_vanishes
        intro g hgm
        obtain ⟨v0, v1, v2, -⟩ := hgood v hg
        simp only [List.mem_cons, List.not_mem_nil, or_false] at hgm
        rcases hgm with rfl | rfl | rfl | rfl | rfl | rfl | rfl | rfl
        · exact v0
        · exact v1
        · exact v2
        iterate 4 exact fun j hj => eval_zero
        exact hfz st)
      exact ⟨chunks, h1, fun _ => h2⟩
    · exact ⟨[], by simp, fun h => absurd h hg⟩
  choose chunks hck hcheq using hchunks
  let P : ProverStrategy F Com :=
    { perm := fun v => V v :: partitions v
      sorted := fun _ => []
      vl := fun _ _ => []
      chunks := fun v _ p => chunks v (st3 v p) }
  have hP : P.Fits n c pd.perm.parts :=
    { permLen := by
        intro v p hpm
        rcases List.mem_cons.1 hpm with h | h
        · rw [h]; exact hVl v
        · exact hpl v p h
      sortedLen := by intro v p h; simp [P] at h
      vlLen := by intro v l p h; simp [P] at h
      chunksLen := fun v l p => hck _ _
      copies := by intro v; simp [P, hcop]
      parts := by intro v; simp [P, hpn, hk']
      lookups := by intro v l; simp [P, hlk]
      noLookups := by intro v h; rfl }
  obtain ⟨vcom, lcom, pcom, qcom, -, hpc, hlc, -, hmain⟩ := any_prover_committed (okPoints := okPoints) hT hO hC hR hH
    hmax hS hp hset P hP
    (fun v l p q => T.challenge (T.absorb q (drawN T.challenge 8 (T.challenge (st3 v p)).2).2))
  obtain rfl := hlc hlk
  obtain ⟨p, rfl⟩ := hpc (.inl hcop)
  refine ⟨vcom, qcom, (drawN T.challenge 8 (T.challenge (st3 vcom (some p))).2).2, fun x1 x2 hx1 hx2 hga hal hok => ?_⟩
  subst hx1 hx2
  have hG : Good vcom := ⟨hga, hal⟩
  obtain ⟨e, hz, pts, w, st', hpts, hw, hver⟩ := hmain hok
  set y := T.challenge (T.absorb qcom (drawN T.challenge 8 (T.challenge (st3 vcom (some p))).2).2) with hy
  obtain ⟨c1, c2, c3, c4, -, -⟩ := find_proofCommitments vcom none (some p) qcom
  obtain ⟨k0, hm1, hm2⟩ := hz.permSize
  obtain ⟨ev, hev1, hev2⟩ := hz.columnsAtY_eq
  obtain ⟨hte, htl⟩ := hS.evaluations hp hev2
  obtain ⟨hq1, hq2⟩ := hz.quotient
  obtain ⟨-, -, -, hver2⟩ := hgood vcom hG
  have hacc : ∀ asserts, placeholderVerify C T L n asserts d c pd.common
      ⟨proofCommitments vcom none (some p) qcom, y.1, e⟩ o0 = some true := by
    intro asserts
    have eperm : (if c.copies.length > 0 then do
        let claims ← readPermClaims e.1 d pd.common pd.common.permutedColumns.length
          (evalPoly pd.perm.qLast y.1) (evalPoly pd.perm.qBlind y.1)
        permVerify T.challenge pd.perm.lagrange0 pd.common.mqc pd.common.permutationParts claims y.1
          (T.absorb vcom s0.1)
      else some ((0, 0, 0), T.absorb vcom s0.1)) = some (((f0 vcom).eval y.1, (f1 vcom).eval y.1,
        (f2 vcom).eval y.1), (alphas vcom).2) := by
      rw [if_pos (List.length_pos_iff.2 hcop), hz.permClaims (common := pd.common) (V := V vcom)
        (partitions := partitions vcom) rfl hp.parts rfl hcols rfl (by rw [hpn, hk']; rfl) hcop
        (by rw [hk']; omega)]
      simp only [Option.bind_eq_bind, Option.bind_some]
      rw [hp.mqcEq, hp.parts, ← s12]
      exact hver2 y.1
    have elook : (if c.lookups.gates.length > 0 then do
        let claims ← readLookupClaims e.1 pd.common (evalPoly pd.perm.lagrange0 y.1)
          (evalPoly pd.perm.qLast y.1) (evalPoly pd.perm.qBlind y.1)
        let lcom ← (proofCommitments vcom none (some p) qcom).find LOOKUP_BATCH
        lookupVerify T.challenge T.absorb lcom c.lookups pd.common.mqc ev claims (alphas vcom).2
      else some ((0, 0, 0, 0), (alphas vcom).2)) = some ((0, 0, 0, 0), (alphas vcom).2) := if_neg (by simp [hlk])
    have epc : (if c.copies.length > 0 ∨ c.lookups.gates.length > 0 then do
        let pcom ← (proofCommitments vcom none (some p) qcom).find PERMUTATION_BATCH
        some (T.absorb pcom (alphas vcom).2)
      else some (alphas vcom).2) = some (st3 vcom (some p)) := by
      rw [if_pos (.inl (List.length_pos_iff.2 hcop)), c3]
      rfl
    have egate : gateVerify T.challenge c.gates ev
        (1 - evalPoly pd.perm.qLast y.1 - evalPoly pd.perm.qBlind y.1) (st3 vcom (some p)) =
        some ((fg (st3 vcom (some p))).eval y.1, (T.challenge (st3 vcom (some p))).2) := by
      have := C33_gates hS.gateSetup T.challenge _ _ _ _ (hfg (st3 vcom (some p))) y.1 ev hte
      rw [← this]
      congr 1
      rw [q1, q2]
      simp [rowMask, gateMask, dfsPoly, eval_toPoly]
    unfold placeholderVerify
    refine bind_step c1 ?_
    refine bind_step hz.qLast.1 ?_
    refine bind_step hz.qBlind.1 ?_
    refine bind_step hm1 ?_
    rw [hm2, hp.lagrange0]
    refine ite_step eperm ?_
    refine bind_step hev1 ?_
    refine ite_step2 elook ?_
    refine ite_step epc ?_
    refine bind_step egate ?_
    refine bind_step c4 ?_
    refine (if_neg (by simp [hy])).trans ?_
    refine bind_step hz.sizes ?_
    refine bind_step hpts ?_
    refine bind_step hw ?_
    refine bind_step hver ?_
    refine (if_pos rfl).trans ?_
    refine bind_step hq1 ?_
    refine bind_step hq2 ?_
    show some (decide _) = some true
    rw [hp.desc, hS.rows, hp.Z, Option.some_inj, decide_eq_true_iff]
    have h1 := verifier_consolidate [f0 vcom, f1 vcom, f2 vcom, 0, 0, 0, 0, fg (st3 vcom (some p))]
      (drawN T.challenge 8 (T.challenge (st3 vcom (some p))).2).1 y.1
    simp only [List.map_cons, List.map_nil, eval_zero] at h1
    rw [h1]
    exact hcheq vcom (st3 vcom (some p)) hG y.1
  have hopen : VariableOpened L n d c pd.common t ⟨proofCommitments vcom none (some p) qcom, y.1, e⟩ := by
    intro pts' hpts'
    have hrl := (columnsRotations_spec d c _ hp.rotations).1
    rw [verifierPoints_eq L n d c pd.common _ hrl, hp.parts, hp.desc, Option.some_inj] at hpts'
    have hf := hz.find VARIABLE_BATCH (Or.inr (Or.inl rfl))
    refine hf.trans ?_
    rw [← hpts', Option.some_inj]
    simp only [VARIABLE_BATCH, honestPolys]
    rw [← List.map_append]
    apply List.ext_getElem (by simp)
    intro i h1 h2
    simp only [List.getElem_mapIdx, List.getElem_map]
    refine List.map_congr_left fun x _ => ?_
    rw [dfsPoly, eval_toPoly]
  refine ⟨_, rfl, hopen, fun asserts => ⟨hacc asserts, fun hrow publicInput hpi => ?_⟩⟩
  rw [C38_verdict hL hS.small hS.rows asserts publicInput fun i xs hi => (hpi.fits i xs hi).2]
  refine ⟨hpi.sizes, hacc asserts, ?_⟩
  intro i xs hi
  obtain ⟨col, r, hcol, hrr, hrot⟩ := hpi.given i xs hi
  have hlen : col.length = 2 ^ n := hS.fits.rect.2.1 col (List.mem_of_getElem? hcol)
  refine ⟨(hpi.fits i xs hi).1, fun k hk => hrow k (hk.trans_le (hpi.fits i xs hi).2), ?_⟩
  rw [first_claim hpre hS.fits.witness hS.fits.publicInput hcol hrr hopen, hrot,
    dfsPoly_rotate hL hS.small r col hlen]

/-! ## over KZG -/

section kzg

variable {F : Type} [Field F] [LinearOrder F] {L : FftLib F} {A n fuel : Nat} {d : TableDesc} {c : Circuit F}
  {order : List PlonkVar} {t : PlonkTable F} {delta : F} {mqc : Nat} {pre : PermData F}

/-- **C66** and **C102**, finding: `C66_parts_forgery` over KZG, with exactly as many values in the proof as there are
polynomials. The only exceptional point is zero. -/
theorem C102_kzg_parts_forgery (hS : PlaceholderSetup L A n fuel d c order t) (hcop : c.copies ≠ [])
    (hlk : c.lookups.gates = []) {k : Nat} (hk : permutationParts order.length mqc = some (k + 2))
    (hgates : GatesHold t c.gates d.usableRows) (hn : 1 ≤ n) (hr : RotationsDistinct n d c)
    (hperm : permPreprocess L n fuel d c.copies order delta mqc = some pre) :
    ∃ (badGamma : F → Finset F) (badAlpha : F → F → Finset F), (∀ b, (badGamma b).card ≤ order.length) ∧
      (∀ b g, (badAlpha b g).card ≤ 1) ∧
      ∀ {S H G1 G2 GT : Type} [AddCommGroup G1] [Module F G1] [AddCommGroup G2] [Module F G2]
        [AddCommGroup GT] [Module F GT] [DecidableEq GT] (P : Pairing F G1 G2 GT) (dk tk : Nat) (alpha : F)
        (codec : PointCodec G1), codec.Lawful → 2 ^ n ≤ dk → 2 ^ n ≤ tk → ∀ (KT : KzgTranscript S F)
        (T : PlonkTranscript S F H (List UInt8)) (hash : H) (C : CommScheme F S (List UInt8) G1 Bool (KzgScheme F)),
        C = kzgComm L P (batchedKzgSetup P dk tk alpha) codec KT →
        ∀ (pd : PublicData F H (List UInt8) Bool) (o0 : KzgScheme F),
        placeholderPreprocess C T L n fuel d c order delta mqc hash t C.new = some (pd, o0) →
        ∃ (vcom qcom : List UInt8) (stq : S), ∀ st1 st,
          st1 = T.absorb vcom (C.setup o0 (T.key pd.common.hash pd.common.fixedCommitment) pd.common.schemeData).1 →
          st = T.absorb qcom stq →
          (T.challenge (T.challenge st1).2).1 ∉ badGamma (T.challenge st1).1 →
          (drawN T.challenge (k + 1) (T.challenge (T.challenge st1).2).2).1.getLastD 0 ∉
            badAlpha (T.challenge st1).1 (T.challenge (T.challenge st1).2).1 →
          (T.challenge st).1 ≠ 0 →
          ∃ proof, proof.challenge = (T.challenge st).1 ∧ VariableOpened L n d c pd.common t proof ∧
            ∀ asserts, placeholderVerify C T L n asserts d c pd.common proof o0 = some true ∧
              ((∀ k < 2 ^ n, proof.challenge ≠ L.root n ^ k) → ∀ publicInput, PublicInputOf d c n t publicInput →
                placeholderVerifyPublic C T L n asserts d c pd.common proof o0 publicInput = some true) := by
  obtain ⟨badGamma, badAlpha, h1, h2, h⟩ := C66_parts_forgery hS hcop hlk hk hgates hperm
  refine ⟨badGamma, badAlpha, h1, h2, ?_⟩
  intro S H G1 G2 GT _ _ _ _ _ _ _ P dk tk alpha codec hcodec hdk htk KT T hash C hC pd o0 hpre
  subst hC
  have hL := hS.lib
  have hp := preprocess_facts hpre
  have hdk0 : 0 < dk := lt_of_lt_of_le (by positivity) hdk
  obtain ⟨vcom, qcom, stq, hv⟩ := h (okPoints := fun y xs => KzgPoints dk (challengeCoset L n y) xs) (okSetup := fun _ => True)
    (kzgComm_total (P := P) (t := tk) (alpha := alpha) (codec := codec) hL hdk0 KT)
    (fun y => kzgComm_opens hL hcodec KT ((challengeCoset_card y).trans htk) hdk0)
    (fun y => kzgComm_complete hL hcodec KT ((challengeCoset_card y).trans htk) hdk0)
    (kzgComm_rootLaws (L := L) (P := P) (codec := codec) KT (batchedKzgSetup P dk tk alpha))
    (hasLaws_lpc A hS.small) hdk hpre trivial
  refine ⟨vcom, qcom, stq, fun st1 st e1 e2 hg ha hy0 => hv st1 st e1 e2 hg ha fun k i pts hpts => ?_⟩
  have hnd := requested_nodup hS hp hn hr (fun h => absurd hlk h) hy0 hpts k i
  have hsub : ∀ x ∈ lpcRequested k i pts, x ∈ challengeCoset L n (T.challenge st).1 := by
    intro x hx
    obtain ⟨r, rfl⟩ := requested_rotation (columnsRotations_spec d c _ hp.rotations).1 hpts k i x hx
    exact mem_challengeCoset hL hS.small hy0 r
  refine ⟨hnd, ?_, hsub⟩
  rw [← List.toFinset_card_of_nodup hnd]
  exact (Finset.card_le_card fun x hx => hsub x (List.mem_toFinset.1 hx)).trans ((challengeCoset_card _).trans hdk)

end kzg

end Crypto3Zk
