import Verif.Lemmas.KZGScheme
import Verif.Props.KZG
import Mathlib.Data.ZMod.Basic
import Mathlib.Algebra.Field.ZMod
import Mathlib.Tactic.NormNum.Prime

/-!
# C40 the batched KZG commitment schemes, as objects

The prover and the verifier each have an object and make any calls in any order; what they hold is
described by `appended`, `requested` and `committed` of their histories (`Verif.Spec.EvalStorage`).
-/

set_option linter.unusedSectionVars false

namespace Crypto3Zk

open Polynomial

variable {F : Type} [Field F]
variable {G1 G2 GT : Type} [AddCommGroup G1] [Module F G1] [AddCommGroup G2] [Module F G2]
  [AddCommGroup GT] [Module F GT]

/-- the serialisation of points: constant length, and decoding inverts encoding -/
structure PointCodec.Lawful (codec : PointCodec G1) : Prop where
  length : ∃ L, ∀ g, (codec.enc g).length = L
  dec : ∀ g, codec.dec (codec.enc g) = some g

/-- The prover's history `hp` and the verifier's history `hv` belong together: the prover commits
every batch it fills, the verifier sets the size of exactly those batches, to the number of
polynomials (except for those that it has itself filled with as many polynomials and committed: an object
that was used for preprocessing has done so), and both request the same points, without repetitions and within the sizes of the
key. -/
structure Session (d t : Nat) (hp hv : List (ContainerOp F)) : Prop where
  proverSizes : ∀ k, noResize k hp
  allCommitted : ∀ k fs, ContainerOp.append k fs ∈ hp → committed k hp
  verifierCommits : ∀ k, committed k hv → committed k hp ∧
    (appended k hv).length = (appended k hp).length ∧ noResize k hv
  sizes : ∀ k n, ContainerOp.batchSize k n ∈ hv → committed k hp ∧ n = (appended k hp).length
  sized : ∀ k, committed k hp → committed k hv ∨ ∃ n, ContainerOp.batchSize k n ∈ hv
  samePoints : ∀ k i, requested k i hv = requested k i hp
  nodup : ∀ k i, committed k hp → i < (appended k hp).length → (requested k i hp).Nodup
  pointsFit : ∀ k i, committed k hp → i < (appended k hp).length → (requested k i hp).length ≤ d
  totalFit : ∀ l : List F, l.Nodup →
    (∀ x ∈ l, ∃ k i, committed k hp ∧ i < (appended k hp).length ∧ x ∈ requested k i hp) → l.length ≤ t
  keyNonempty : 0 < d

section

variable [LinearOrder F]

/-- what the two objects hold in a session -/
structure SessionView (P : Pairing F G1 G2 GT) (alpha : F) (d t : Nat) (codec : PointCodec G1)
    (hp : List (ContainerOp F)) (sp : KzgScheme F) (ev ev' : PolysEvaluator F)
    (keys : List Nat) : Prop where
  keysMem : ∀ k, k ∈ keys ↔ committed k hp
  evaluated : sp.ev.evalPolys = some ev'
  polys : ev'.polys = keys.map fun k => (k, (List.range (appended k hp).length).map
    fun i => (appended k hp).getD i [])
  prover : View ev' keys (fun k => (appended k hp).length) (fun k i => (appended k hp).getD i [])
    fun k i => requested k i hp
  verifier : View ⟨ev'.z, ev.polys, ev.locked, ev.points⟩ keys (fun k => (appended k hp).length)
    (fun k i => (appended k hp).getD i []) fun k i => requested k i hp
  commitments : sp.commitments = keys.map fun k => (k,
    (((List.range (appended k hp).length).map fun i => (appended k hp).getD i []).map
      fun f => evalPoly f alpha • P.one1).flatMap codec.enc)
  merged : mergedPoints ev = mergedPoints ev'
  mergedLength : (mergedPoints ev).length ≤ t
  mergedMem : ∀ x, x ∈ mergedPoints ev ↔
    ∃ k i, i < (appended k hp).length ∧ committed k hp ∧ x ∈ requested k i hp
  itemsOK : ∀ e ∈ viewItems keys (fun k => (appended k hp).length)
    (fun k i => (appended k hp).getD i []) (fun k i => requested k i hp),
    ItemOK (mergedPoints ev) d e

theorem mem_mergedPoints (ev : PolysEvaluator F) (hs : ev.points.Sorted) (x : F) :
    x ∈ mergedPoints ev ↔ ∃ k batch, ev.points.find k = some batch ∧ ∃ l ∈ batch, x ∈ l := by
  unfold mergedPoints
  rw [mem_sortedSet, List.mem_flatMap]
  constructor
  · rintro ⟨e, he, hx⟩
    exact ⟨e.1, e.2, hs.find_mem he, List.mem_flatten.1 hx⟩
  · rintro ⟨k, batch, hf, hx⟩
    exact ⟨(k, batch), OMap.find_some_mem hf, List.mem_flatten.2 hx⟩

theorem session_view (P : Pairing F G1 G2 GT) (alpha : F) (d t : Nat) (codec : PointCodec G1)
    (hp hv : List (ContainerOp F)) (sess : Session d t hp hv) (sp : KzgScheme F)
    (hsp : runScheme (batchedKzgSetup P d t alpha).ck codec hp = some sp)
    (ev : PolysEvaluator F) (hev : runContainer hv = some ev) :
    ∃ ev' keys, SessionView P alpha d t codec hp sp ev ev' keys := by
  have inv : SchemeInv alpha P.one1 d codec hp sp := scheme_run alpha P.one1 d codec hp sp hsp
  have cp := container_run hp sp.ev inv.run
  have cv := container_run hv ev hev
  have hlock : ∀ k, lockedSpec k hp ↔ committed k hp := by
    intro k
    refine ⟨fun h => h.elim id ?_, Or.inl⟩
    rintro ⟨n, hn⟩
    exact absurd hn (sess.proverSizes k n)
  have hkeys : ∀ k, k ∈ sp.ev.polys.keys ↔ committed k hp := by
    intro k
    rw [cp.keys]
    exact ⟨fun h => h.elim id fun ⟨fs, hfs⟩ => sess.allCommitted k fs hfs, Or.inl⟩
  have hpoly : ∀ k ∈ sp.ev.polys.keys, sp.ev.polys.find k = some (appended k hp) := by
    intro k hk
    have h1 := (OMap.find_isSome_iff sp.ev.polys k).2 hk
    obtain ⟨v, hv⟩ := Option.isSome_iff_exists.1 h1
    have h2 := cp.polys k
    rw [OMap.getD, hv] at h2
    rw [hv, ← h2]; rfl
  have hpts : ∀ k, committed k hp → sp.ev.points.find k
      = some ((List.range (appended k hp).length).map fun i => requested k i hp) :=
    fun k hk => cp.points k (sess.proverSizes k) hk
  have hvpts : ∀ k, committed k hp → ev.points.find k
      = some ((List.range (appended k hp).length).map fun i => requested k i hp) := by
    intro k hk
    by_cases hc : committed k hv
    · obtain ⟨-, h2, h3⟩ := sess.verifierCommits k hc
      rw [cv.points k h3 hc, h2]
      simp only [sess.samePoints]
    · obtain ⟨n, hn⟩ := (sess.sized k hk).resolve_left hc
      have h1 := cv.sized k n hc hn (fun n' hn' => by
        rw [(sess.sizes k n' hn').2, (sess.sizes k n hn).2])
      rw [h1, (sess.sizes k n hn).2]
      simp only [sess.samePoints]
  have hvnone : ∀ k, ¬ committed k hp → ev.points.find k = none := by
    intro k hk
    refine (cv.unlocked k ?_).1
    rintro (h | ⟨n, hn⟩)
    · exact hk (sess.verifierCommits k h).1
    · exact hk (sess.sizes k n hn).1
  have hpnone : ∀ k, ¬ committed k hp → sp.ev.points.find k = none :=
    fun k hk => (cp.unlocked k (fun h => hk ((hlock k).1 h))).1
  obtain ⟨z, hz, hzf⟩ := PolysEvaluator.evalBatches_spec sp.ev.points sp.ev.polys sp.ev.z cp.sorted
    (by
      intro k fs hfs
      have hk : k ∈ sp.ev.polys.keys := (OMap.find_isSome_iff _ _).1 (by rw [hfs]; rfl)
      rw [hpoly k hk, Option.some.injEq] at hfs
      exact ⟨_, hpts k ((hkeys k).1 hk), by simp [← hfs]⟩)
  set ev' : PolysEvaluator F := ⟨z, sp.ev.polys, sp.ev.locked, sp.ev.points⟩ with hev'
  have hzk : ∀ k ∈ sp.ev.polys.keys, OMap.find z k
      = some ((List.range (appended k hp).length).map fun i =>
        (requested k i hp).map (evalPoly ((appended k hp).getD i []))) := by
    intro k hk
    rw [hzf k, hpoly k hk]
    simp only [OMap.getD, hpts k ((hkeys k).1 hk), Option.getD_some, Option.some.injEq]
    conv_lhs => rw [← range_map_getD (appended k hp) []]
    rw [List.length_map, List.length_range, List.zipWith_map, List.zipWith_self]
  have hmem : ∀ (e : PolysEvaluator F), e.points.Sorted →
      (∀ k, committed k hp → e.points.find k
        = some ((List.range (appended k hp).length).map fun i => requested k i hp)) →
      (∀ k, ¬ committed k hp → e.points.find k = none) → ∀ x, x ∈ mergedPoints e ↔
      ∃ k i, i < (appended k hp).length ∧ committed k hp ∧ x ∈ requested k i hp := by
    intro e hs h1 h2 x
    rw [mem_mergedPoints e hs]
    constructor
    · rintro ⟨k, batch, hf, l, hl, hx⟩
      by_cases hk : committed k hp
      · rw [h1 k hk, Option.some.injEq] at hf
        subst hf
        obtain ⟨i, hi, rfl⟩ := List.mem_map.1 hl
        exact ⟨k, i, by simpa using hi, hk, hx⟩
      · rw [h2 k hk] at hf; simp at hf
    · rintro ⟨k, i, hi, hk, hx⟩
      exact ⟨k, _, h1 k hk, _, List.mem_map.2 ⟨i, by simpa using hi, rfl⟩, hx⟩
  have hm1 := hmem ev cv.psorted hvpts hvnone
  have hm2 := hmem ev' cp.psorted hpts hpnone
  have hmerged : mergedPoints ev = mergedPoints ev' :=
    strict_ext (sortedSet_strict _) (sortedSet_strict _) fun x => by
      exact (hm1 x).trans (hm2 x).symm
  refine ⟨ev', sp.ev.polys.keys, hkeys, ?_, ?_, ⟨?_, ?_⟩, ⟨?_, ?_⟩, ?_, hmerged, ?_, hm1, ?_⟩
  · simp only [PolysEvaluator.evalPolys, hz, Option.bind_eq_bind, Option.bind_some, hev']
  · conv_lhs => rw [hev']
    simp only [range_map_getD]
    exact cp.sorted.eq_map _ hpoly
  · intro k hk; exact hpts k ((hkeys k).1 hk)
  · exact hzk
  · intro k hk; exact hvpts k ((hkeys k).1 hk)
  · exact hzk
  · have hck : sp.commitments.keys = sp.ev.polys.keys := by
      refine strict_ext inv.sorted cp.sorted fun k => ?_
      rw [hkeys, ← OMap.find_isSome_iff]
      by_cases hk : committed k hp
      · simp [hk, inv.found k hk]
      · simp [hk, inv.absent k hk]
    rw [← hck]
    refine inv.sorted.eq_map _ ?_
    intro k hk
    rw [hck, hkeys] at hk
    rw [inv.found k hk, range_map_getD]; rfl
  · apply sess.totalFit _ (nodup_sortedSet _)
    intro x hx
    obtain ⟨k, i, h1, h0, h2⟩ := (hm1 x).1 hx
    exact ⟨k, i, h0, h1, h2⟩
  · apply viewItems_ok
    intro k hk i hi
    have hk' := (hkeys k).1 hk
    refine ⟨sess.nodup k i hk' hi, fun x hx => (hm1 x).2 ⟨k, i, hi, hk', hx⟩, ?_, sess.pointsFit k i hk' hi⟩
    apply inv.fits k hk'
    rw [List.getD_eq_getElem?_getD, List.getElem?_eq_getElem hi]
    exact List.getElem_mem hi

theorem SessionView.cmKeys {P : Pairing F G1 G2 GT} {alpha : F} {d t : Nat} {codec : PointCodec G1}
    {hp : List (ContainerOp F)} {sp : KzgScheme F} {ev ev' : PolysEvaluator F} {keys : List Nat}
    (v : SessionView P alpha d t codec hp sp ev ev' keys) : sp.commitments.keys = keys := by
  rw [v.commitments, OMap.keys, List.map_map]; exact List.map_id _

/-- C40, `kzg_commitment_scheme`. For every session, every serialisation of points, every challenge
function and every trapdoor, the prover produces a proof and the verifier, given the prover's
commitments, accepts it. -/
theorem C40_scheme_complete [DecidableEq GT] (P : Pairing F G1 G2 GT) (d t : Nat) (alpha : F)
    (codec : PointCodec G1) (hcodec : codec.Lawful) (chal : List (KzgMsg F) → F)
    (hp hv : List (ContainerOp F)) (sess : Session d t hp hv) (sp : KzgScheme F)
    (hsp : runScheme (batchedKzgSetup P d t alpha).ck codec hp = some sp)
    (ev : PolysEvaluator F) (hev : runContainer hv = some ev)
    (cms : OMap (List UInt8)) (merged : List F) :
    ∃ proof, sp.proofEval (batchedKzgSetup P d t alpha).ck chal = some proof ∧
      KzgScheme.verifyEval P (batchedKzgSetup P d t alpha) codec chal ⟨ev, cms, merged⟩ proof
        sp.commitments = some true := by
  obtain ⟨ev', keys, v⟩ := session_view P alpha d t codec hp hv sess sp hsp ev hev
  obtain ⟨L, hL⟩ := hcodec.length
  have hT : (mergedPoints ev).Nodup := nodup_sortedSet _
  set items := viewItems keys (fun k => (appended k hp).length)
    (fun k i => (appended k hp).getD i []) (fun k i => requested k i hp) with hitems
  set ms := viewMsgs keys (fun k => (appended k hp).length)
    (fun k i => (appended k hp).getD i []) (fun k i => requested k i hp) sp.commitments with hms
  obtain ⟨p1, p2⟩ := kzgProver_fold (mergedPoints ev) hT d (chal ms) items v.itemsOK (1, [0])
    (by simpa using Nat.succ_le_of_lt sess.keyNonempty)
  obtain ⟨c', p3⟩ := kzgVerifier_fold P (mergedPoints ev) hT d t alpha (chal ms) v.mergedLength items
    v.itemsOK (1, 0)
  have hvi := v.verifier.verifierItems codec L hL hcodec.dec (fun f => evalPoly f alpha • P.one1)
  rw [← v.commitments, ← hitems] at hvi
  have hck : kzgCommit (batchedKzgSetup P d t alpha).ck
      (items.foldl (kzgProverStep (chal ms)) (1, [0])).2
      = some (evalPoly (items.foldl (kzgProverStep (chal ms)) (1, [0])).2 alpha • P.one1) :=
    kzgCommit_powerKey alpha P.one1 d _ p2
  have hvk : kzgCommit (batchedKzgSetup P d t alpha).vk (getV (mergedPoints ev))
      = some (evalPoly (getV (mergedPoints ev)) alpha • P.one2) :=
    kzgCommit_powerKey alpha P.one2 (t + 1) _ (by
      rw [length_getV]; have := v.mergedLength; omega)
  refine ⟨(ev'.z, evalPoly (items.foldl (kzgProverStep (chal ms)) (1, [0])).2 alpha • P.one1),
    ?_, ?_⟩
  · simp only [KzgScheme.proofEval, v.evaluated, Option.bind_eq_bind, Option.bind_some,
      v.prover.transcript sp.commitments v.cmKeys, v.prover.proverItems v.polys, ← hitems, ← hms,
      hck]
  · simp only [KzgScheme.verifyEval, v.verifier.transcript sp.commitments v.cmKeys, ← hms, hvi,
      Option.bind_eq_bind, Option.bind_some, p3, hvk, Option.some.injEq, decide_eq_true_eq]
    rw [zero_add, pair_smul]
    congr 1
    have h := congrArg (eval alpha) p1
    have h0 : toPoly ([0] : List F) = 0 := by simp [toPoly_cons, toPoly_nil]
    rw [h0, zero_mul, zero_add, eval_mul, eval_toPoly] at h
    rw [← h, ← toPoly_getV, eval_toPoly]

/-- A session of `kzg_commitment_scheme_v2`: the prover gets a proof, and if no committed batch is empty the
verifier accepts it. -/
theorem scheme2_session [DecidableEq GT] (P : Pairing F G1 G2 GT) (d t tS : Nat) (alpha : F)
    (codec : PointCodec G1) (hcodec : codec.Lawful) (chal : List (KzgMsg F) → F)
    (hp hv : List (ContainerOp F)) (sess : Session d tS hp hv) (ht : 0 < t) (sp : KzgScheme F)
    (hsp : runScheme (batchedKzgSetup P d t alpha).ck codec hp = some sp)
    (ev : PolysEvaluator F) (hev : runContainer hv = some ev)
    (cms : OMap (List UInt8)) (merged : List F) :
    ∃ proof, sp.proofEval2 (batchedKzgSetup P d t alpha).ck codec chal = some proof ∧
      ((∀ k, committed k hp → appended k hp ≠ []) →
      KzgScheme.verifyEval2 P (batchedKzgSetup P d t alpha) codec chal ⟨ev, cms, merged⟩ proof
        sp.commitments = some true) := by
  obtain ⟨ev', keys, v⟩ := session_view P alpha d tS codec hp hv sess sp hsp ev hev
  obtain ⟨L, hL⟩ := hcodec.length
  have hd := sess.keyNonempty
  set T := mergedPoints ev with hTdef
  have hT : T.Nodup := nodup_sortedSet _
  set items := viewItems keys (fun k => (appended k hp).length)
    (fun k i => (appended k hp).getD i []) (fun k i => requested k i hp) with hitems
  set ms := viewMsgs keys (fun k => (appended k hp).length)
    (fun k i => (appended k hp).getD i []) (fun k i => requested k i hp) sp.commitments with hms
  set theta := chal ms with htheta
  have h0 : toPoly ([0] : List F) = 0 := by simp [toPoly_cons, toPoly_nil]
  -- the first accumulation is divisible by the vanishing polynomial
  obtain ⟨stF, f1, f2, f3⟩ := kzg2F_fold T hT d theta items v.itemsOK (1, [0])
    (by simp; omega)
  rw [h0, zero_add] at f2
  obtain ⟨p1, -⟩ := kzgProver_fold T hT d theta items v.itemsOK (1, [0])
    (by simpa using Nat.succ_le_of_lt hd)
  rw [h0, zero_mul, zero_add] at p1
  have hdvd : vanish T ∣ toPoly stF.2 := by
    rw [f2]; exact ⟨_, by rw [← p1, mul_comm]⟩
  have hzero : polyIsZero (polyMod stF.2 (getV T)) = true := by
    rw [polyIsZero_iff, (toPoly_divMod _ _ (getV_last T)).2, toPoly_getV]
    exact (modByMonic_eq_zero_iff_dvd (vanish_monic T).1).2 hdvd
  set q := polyDiv stF.2 (getV T) with hq
  have hqp : vanish T * toPoly q = toPoly stF.2 := by
    rw [hq, (toPoly_divMod _ _ (getV_last T)).1, toPoly_getV]
    exact mul_divByMonic_of_dvd (vanish_monic T).1 hdvd
  have hql : q.length ≤ d := by rw [hq, length_polyDiv, length_getV]; omega
  set pi1 := evalPoly q alpha • P.one1 with hpi1
  have hck1 : kzgCommit (batchedKzgSetup P d t alpha).ck q = some pi1 :=
    kzgCommit_powerKey alpha P.one1 d _ hql
  set theta2 := chal (ms ++ [.bytes (codec.enc pi1)]) with htheta2
  -- the second accumulation
  obtain ⟨stL, l1, l2, l3⟩ := kzg2L_fold T hT d hd theta theta2 items v.itemsOK (1, [0])
    (by simpa using Nat.succ_le_of_lt hd)
  rw [h0, zero_add] at l2
  set Lp := polySub stL.2 (polyScale (evalPoly (getV T) theta2) q) with hLp
  have hLpoly : toPoly Lp = comboL T theta theta2 1 items
      - C ((vanish T).eval theta2) * toPoly q := by
    rw [hLp, toPoly_polySub, toPoly_polyScale, l2, ← eval_toPoly, toPoly_getV]
  have hLzero : evalPoly Lp theta2 = 0 := by
    rw [← eval_toPoly, hLpoly, eval_sub, eval_mul, eval_C, comboL_eval, ← eval_mul, hqp, f2,
      sub_self]
  have hlin : ([-theta2, 1] : List F).getLastD 0 = 1 := rfl
  have hdvd2 : (X - C theta2) ∣ toPoly Lp := by
    rw [dvd_iff_isRoot, IsRoot.def, eval_toPoly, hLzero]
  set r := polyDiv Lp [-theta2, 1] with hr
  have hrp : (X - C theta2) * toPoly r = toPoly Lp := by
    rw [hr, (toPoly_divMod _ _ hlin).1, toPoly_lin]
    exact mul_divByMonic_of_dvd (monic_X_sub_C theta2) hdvd2
  have hrl : r.length ≤ d := by
    rw [hr, length_polyDiv, hLp, length_polySub, length_polyScale]; simp; omega
  have hck2 : kzgCommit (batchedKzgSetup P d t alpha).ck r = some (evalPoly r alpha • P.one1) :=
    kzgCommit_powerKey alpha P.one1 d _ hrl
  -- the verifier
  have hvi := v.verifier.verifierItems codec L hL hcodec.dec (fun f => evalPoly f alpha • P.one1)
  rw [← v.commitments, ← hitems] at hvi
  obtain ⟨stV, v1, v2⟩ := kzg2Verifier_fold P.one1 T hT d alpha theta theta2 items v.itemsOK (1, 0, 0)
  simp only [zero_smul, sub_zero, zero_add] at v2
  have hbn : (∀ k, committed k hp → appended k hp ≠ []) →
      batchesNonempty ⟨ev'.z, ev.polys, ev.locked, ev.points⟩ sp.commitments = some () := by
    intro hne
    unfold batchesNonempty
    rw [if_pos]
    rw [List.all_eq_true]
    intro e he
    have hk : e.1 ∈ keys := by
      rw [← v.cmKeys]; exact List.mem_map.2 ⟨e, he, rfl⟩
    have := v.verifier.points e.1 hk
    simp only at this
    simp [OMap.getD, this, hne e.1 ((v.keysMem _).1 hk)]
  have hvk1 : (batchedKzgSetup P d t alpha).vk[1]? = some (alpha • P.one2) := by
    simp only [batchedKzgSetup]
    rw [powerKey_get alpha P.one2 (t + 1) 1 (by omega), pow_one]
  refine ⟨(ev'.z, pi1, evalPoly r alpha • P.one1), ?_, ?_⟩
  · simp only [KzgScheme.proofEval2, v.evaluated, Option.bind_eq_bind, Option.bind_some,
      v.prover.transcript sp.commitments v.cmKeys, v.prover.proverItems v.polys, ← hitems, ← hms,
      ← v.merged, ← hTdef, ← htheta, f1, if_pos hzero, ← hq, hck1, ← htheta2, l1, ← hLp,
      if_pos hLzero, ← hr, hck2]
  · intro hne
    have hbn := hbn hne
    simp only [KzgScheme.verifyEval2, v.verifier.transcript sp.commitments v.cmKeys, ← hms, hvi,
      ← hTdef, ← htheta, ← htheta2, hbn, Option.bind_eq_bind, Option.bind_some, v1, hvk1,
      Option.some.injEq, decide_eq_true_eq, v2]
    rw [hpi1]
    simp only [map_add, map_sub, map_smul, LinearMap.add_apply, LinearMap.sub_apply,
      LinearMap.smul_apply, smul_smul, ← add_smul, ← sub_smul]
    congr 1
    have h1 := congrArg (eval alpha) hrp
    rw [eval_mul, eval_sub, eval_X, eval_C, eval_toPoly, hLpoly, eval_sub, eval_mul, eval_C,
      eval_toPoly] at h1
    rw [← toPoly_getV, eval_toPoly] at h1
    linear_combination -h1

/-- C40, `kzg_commitment_scheme_v2`. The same, if no committed batch is empty. The second key can be of any size from
two elements on (`t` is one in `create_params`, kzg_v2.hpp:199-205), so the number `tS` of all points of the session
does not matter. -/
theorem C40_scheme2_complete [DecidableEq GT] (P : Pairing F G1 G2 GT) (d t tS : Nat) (alpha : F)
    (codec : PointCodec G1) (hcodec : codec.Lawful) (chal : List (KzgMsg F) → F)
    (hp hv : List (ContainerOp F)) (sess : Session d tS hp hv) (ht : 0 < t)
    (hne : ∀ k, committed k hp → appended k hp ≠ []) (sp : KzgScheme F)
    (hsp : runScheme (batchedKzgSetup P d t alpha).ck codec hp = some sp)
    (ev : PolysEvaluator F) (hev : runContainer hv = some ev)
    (cms : OMap (List UInt8)) (merged : List F) :
    ∃ proof, sp.proofEval2 (batchedKzgSetup P d t alpha).ck codec chal = some proof ∧
      KzgScheme.verifyEval2 P (batchedKzgSetup P d t alpha) codec chal ⟨ev, cms, merged⟩ proof
        sp.commitments = some true := by
  obtain ⟨proof, h1, h2⟩ := scheme2_session P d t tS alpha codec hcodec chal hp hv sess ht sp hsp ev hev cms merged
  exact ⟨proof, h1, h2 hne⟩

/-- C40, finding. In the second version an empty committed batch makes the verifier divide by zero:
its verdict is undefined for every proof, although the prover commits the batch. -/
theorem C40_scheme2_empty_batch [DecidableEq GT] (P : Pairing F G1 G2 GT) (d t : Nat) (alpha : F)
    (codec : PointCodec G1) (chal : List (KzgMsg F) → F) (k : Nat)
    (proof : EvalStorage F × G1 × G1) :
    (∃ sp, runScheme (batchedKzgSetup P d t alpha).ck codec [ContainerOp.commit (F := F) k] = some sp ∧
      ∃ ev, runContainer [ContainerOp.batchSize (F := F) k 0] = some ev ∧
      KzgScheme.verifyEval2 P (batchedKzgSetup P d t alpha) codec chal ⟨ev, [], []⟩ proof
        sp.commitments = none) := by
  have h1 : runScheme (batchedKzgSetup P d t alpha).ck codec [ContainerOp.commit (F := F) k]
      = some ⟨⟨[], [(k, [])], [(k, true)], [(k, [])]⟩, [(k, [])], []⟩ := by
    simp [runScheme, KzgScheme.apply, KzgScheme.commit, PolysEvaluator.stateCommitted,
      PolysEvaluator.empty, OMap.getD, OMap.find, OMap.insert, PolysEvaluator.resizePoints]
  have h2 : runContainer [ContainerOp.batchSize (F := F) k 0]
      = some ⟨[], [], [(k, true)], [(k, [])]⟩ := by
    simp [runContainer, ContainerOp.apply, PolysEvaluator.setBatchSize,
      PolysEvaluator.empty, OMap.getD, OMap.find, OMap.insert, PolysEvaluator.resizePoints]
  refine ⟨_, h1, _, h2, ?_⟩
  have hbn : batchesNonempty (F := F) ⟨proof.1, [], [(k, true)], [(k, [])]⟩
      [(k, ([] : List UInt8))] = none := by
    simp [batchesNonempty, OMap.getD, OMap.find]
  simp only [KzgScheme.verifyEval2, Option.bind_eq_bind, hbn, Option.bind_none, Option.bind_fun_none]

end

/-! ### a session -/

/-- the order of the integers modulo 5 -/
instance exOrder5 : LinearOrder (ZMod 5) := inferInstanceAs (LinearOrder (Fin 5))

instance exPrime5 : Fact (Nat.Prime 5) := ⟨by norm_num⟩

/-- the integers modulo 5 as scalars and groups -/
def exPairing5 : Pairing (ZMod 5) (ZMod 5) (ZMod 5) (ZMod 5) :=
  ⟨LinearMap.mul (ZMod 5) (ZMod 5), 1, 1, fun _ => true, fun _ => true⟩

/-- a point as one byte -/
def exCodec : PointCodec (ZMod 5) :=
  ⟨fun g => [UInt8.ofNat g.val], fun l => l.head?.map fun b => ((b.toNat : Nat) : ZMod 5)⟩

def exProver : List (ContainerOp (ZMod 5)) :=
  [.append 0 [[1, 2], [3]], .append 2 [[0, 0, 4]], .commit 0, .points 0 [1, 2], .commit 2,
    .pointsTo 0 1 [3], .pointsTo 2 0 [1]]

def exVerifier : List (ContainerOp (ZMod 5)) :=
  [.batchSize 2 1, .pointsTo 2 0 [1], .batchSize 0 2, .points 0 [1, 2], .pointsTo 0 1 [3]]

theorem exCodec_lawful : exCodec.Lawful := ⟨⟨1, fun _ => rfl⟩, by decide +kernel⟩

theorem exSession : Session 4 3 exProver exVerifier := by
  have hreq : ∀ k i, requested k i exProver =
      (if k = 0 then [1, 2] else []) ++ (if k = 0 ∧ i = 1 then [3] else [])
        ++ (if k = 2 ∧ i = 0 then [1] else []) := by
    intro k i
    simp only [requested, exProver, List.flatMap_cons, List.flatMap_nil, List.nil_append,
      List.append_nil, eq_comm (a := (0 : Nat)), eq_comm (a := (1 : Nat)),
      eq_comm (a := (2 : Nat)), List.append_assoc]
  have happ : ∀ k, appended k exProver =
      (if k = 0 then [[1, 2], [3]] else []) ++ (if k = 2 then [[0, 0, 4]] else []) := by
    intro k
    simp only [appended, exProver, List.flatMap_cons, List.flatMap_nil, List.nil_append,
      List.append_nil, eq_comm (a := (0 : Nat)), eq_comm (a := (2 : Nat))]
  have hcom : ∀ k, committed k exProver ↔ k = 0 ∨ k = 2 := by
    intro k; simp [committed, exProver]
  refine ⟨?_, ?_, ?_, ?_, ?_, ?_, ?_, ?_, ?_, by norm_num⟩
  · intro k n; simp [exProver]
  · intro k fs h; rw [hcom]; simp [exProver] at h; omega
  · intro k; simp [committed, exVerifier]
  · intro k n h
    rw [hcom, happ]
    simp [exVerifier] at h
    rcases h with ⟨rfl, rfl⟩ | ⟨rfl, rfl⟩ <;> simp
  · intro k h
    rw [hcom] at h
    rcases h with rfl | rfl
    · exact .inr ⟨2, by simp [exVerifier]⟩
    · exact .inr ⟨1, by simp [exVerifier]⟩
  · intro k i
    rw [hreq]
    simp only [requested, exVerifier, List.flatMap_cons, List.flatMap_nil, List.nil_append,
      List.append_nil, eq_comm (a := (0 : Nat)), eq_comm (a := (1 : Nat)), eq_comm (a := (2 : Nat))]
    by_cases h0 : k = 0
    · subst h0; simp
    · simp [h0]
  · intro k i _ _
    rw [hreq]
    by_cases h0 : k = 0
    · subst h0
      by_cases h1 : i = 1 <;> simp [h1] <;> decide +kernel
    · by_cases h2 : k = 2 ∧ i = 0 <;> simp [h0, h2]
  · intro k i _ _
    rw [hreq]
    by_cases h0 : k = 0
    · subst h0
      by_cases h1 : i = 1 <;> simp [h1]
    · by_cases h2 : k = 2 ∧ i = 0 <;> simp [h0, h2]
  · intro l hl hx
    have hs : l ⊆ [1, 2, 3] := by
      intro x hxl
      obtain ⟨k, i, -, -, h⟩ := hx x hxl
      rw [hreq] at h
      by_cases h0 : k = 0
      · subst h0
        by_cases h1 : i = 1 <;> simp [h1] at h ⊢ <;> tauto
      · by_cases h2 : k = 2 ∧ i = 0 <;> simp [h0, h2] at h ⊢ <;> tauto
    exact (List.subperm_of_subset hl hs).length_le

theorem exSession_runs : (runScheme (batchedKzgSetup exPairing5 4 3 (4 : ZMod 5)).ck exCodec
      exProver).isSome ∧ (runContainer exVerifier).isSome := by
  decide +kernel

/-- the hypotheses of both completeness theorems hold for this session -/
example (chal : List (KzgMsg (ZMod 5)) → ZMod 5) : ∃ sp ev proof proof',
    runScheme (batchedKzgSetup exPairing5 4 3 (4 : ZMod 5)).ck exCodec exProver = some sp ∧
    runContainer exVerifier = some ev ∧
    KzgScheme.verifyEval exPairing5 (batchedKzgSetup exPairing5 4 3 4) exCodec chal ⟨ev, [], []⟩ proof
      sp.commitments = some true ∧
    KzgScheme.verifyEval2 exPairing5 (batchedKzgSetup exPairing5 4 1 4) exCodec chal ⟨ev, [], []⟩
      proof' sp.commitments = some true := by
  obtain ⟨h1, h2⟩ := exSession_runs
  obtain ⟨sp, hsp⟩ := Option.isSome_iff_exists.1 h1
  obtain ⟨ev, hev⟩ := Option.isSome_iff_exists.1 h2
  obtain ⟨proof, -, hproof⟩ := C40_scheme_complete exPairing5 4 3 4 exCodec exCodec_lawful chal
    exProver exVerifier exSession sp hsp ev hev [] []
  obtain ⟨proof', -, hproof'⟩ := C40_scheme2_complete exPairing5 4 1 3 4 exCodec exCodec_lawful chal
    exProver exVerifier exSession (by norm_num)
    (by
      intro k hk
      simp [committed, exProver] at hk
      rcases hk with rfl | rfl <;> simp [appended, exProver]) sp hsp ev hev [] []
  exact ⟨sp, ev, proof, proof', hsp, hev, hproof, hproof'⟩

end Crypto3Zk
