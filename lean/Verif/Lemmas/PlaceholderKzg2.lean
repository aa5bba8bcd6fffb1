import Verif.Model.PlaceholderKzg2
import Verif.Lemmas.PlaceholderKzg
import Verif.Lemmas.PlaceholderRun

/-!
# The second KZG scheme as a commitment scheme of the placeholder proof system
-/

set_option linter.unusedSectionVars false

namespace Crypto3Zk

variable {F : Type} [Field F] [LinearOrder F] {S G1 G2 GT : Type} [AddCommGroup G1] [Module F G1]
  [AddCommGroup G2] [Module F G2] [AddCommGroup GT] [Module F GT] [DecidableEq GT]
variable {L : FftLib F} {A : Nat}
variable {P : Pairing F G1 G2 GT} {d t tS : Nat} {alpha : F} {codec : PointCodec G1}

/-- No committed batch is empty. -/
def filled (s : KzgScheme F) : Bool := s.commitments.all fun e => (s.ev.polys.getD e.1 []).length != 0

/-- `proof_eval` of a prover that gives up if a committed batch is empty and does not absorb the second element of the
proof. -/
def KzgScheme.proofEval2Filled (ck : List G1) (codec : PointCodec G1) (T : KzgTranscript S F)
    (s : KzgScheme F) (st : S) : Option ((EvalStorage F × G1 × G1) × S) := do
  let ev ← s.ev.evalPolys
  let ms ← kzgTranscriptAll ev s.commitments
  let proof ← s.proofEval2 ck codec (T.drawTwo st ms)
  if filled s then some (proof, T.afterTwo codec st ms proof.2.1) else none

/-- The scheme with this prover. -/
def kzg2Filled (L : FftLib F) (P : Pairing F G1 G2 GT)
    (pp : BatchedKzgParams G1 G2) (codec : PointCodec G1) (T : KzgTranscript S F) :
    CommScheme F S (List UInt8) (G1 × G1) Bool (KzgScheme F) :=
  { kzg2Comm L P pp codec T with proofEval := fun s st => s.proofEval2Filled pp.ck codec T st }

theorem kzg2Comm_total (hL : L.Lawful A) (hd : 0 < d) (T : KzgTranscript S F) :
    (kzg2Comm L P (batchedKzgSetup P d t alpha) codec T).Total (fun f c => f.Has L A c) d :=
  kzgComm_total (t := t) hL hd T

theorem kzg2Comm_totalSetup (hL : L.Lawful A) (hd : 0 < d) (T : KzgTranscript S F) :
    (kzg2Comm L P (batchedKzgSetup P d t alpha) codec T).TotalSetup (fun f c => f.Has L A c) d :=
  kzgComm_totalSetup (t := t) hL hd T

theorem kzg2Filled_rootLaws (T : KzgTranscript S F) (pp : BatchedKzgParams G1 G2) :
    (kzg2Filled L P pp codec T).RootLaws :=
  ⟨(kzgComm_rootLaws (L := L) (P := P) (codec := codec) T pp).apply,
    (kzgComm_rootLaws (L := L) (P := P) (codec := codec) T pp).setup⟩

theorem drawTwo_first (T : KzgTranscript S F) (st : S) (ms : List (KzgMsg F)) :
    T.drawTwo st ms ms = (T.draw st ms).1 := by simp [KzgTranscript.drawTwo]

theorem drawTwo_second (T : KzgTranscript S F) (st : S) (ms l : List (KzgMsg F)) (hl : l ≠ []) :
    T.drawTwo st ms (ms ++ l) = (T.draw (T.draw st ms).2 l).1 := by
  have : 0 < l.length := List.length_pos_of_ne_nil hl
  simp [KzgTranscript.drawTwo, hl]

/-- a session: the prover gets a proof with the values of the polynomials, and the verifier accepts it if no
committed batch is empty -/
theorem kzg2_session_proof (hL : L.Lawful A) (hcodec : codec.Lawful) (T : KzgTranscript S F) {U : Finset F}
    (hU : U.card ≤ tS) (hd : 0 < d) (ht : 0 < t) {pre hp szs pts : List (LpcOp F)} {Q : Nat → List (List F)}
    (sess : SchemeSession (fun f c => f.Has L A c) d (KzgPoints d U) pre hp szs pts Q)
    (o0 sp : KzgScheme F) (st : S)
    (hpre : runKzg L (batchedKzgSetup P d t alpha).ck codec pre = some o0)
    (hsp : runKzg L (batchedKzgSetup P d t alpha).ck codec (pre ++ (hp ++ pts)) = some sp) :
    ∃ proof ms ev, sp.ev.evalPolys = some ev ∧ kzgTranscriptAll ev sp.commitments = some ms ∧
      sp.proofEval2 (batchedKzgSetup P d t alpha).ck codec (T.drawTwo st ms) = some proof ∧
      (∀ k, LpcOp.commit k ∈ pre ++ hp → proof.1.find k =
        some ((Q k).mapIdx fun i c => (lpcRequested k i pts).map (evalPoly c))) ∧
      ∃ v, runKzg L (batchedKzgSetup P d t alpha).ck codec (pre ++ (szs ++ pts)) = some v ∧
        (filled sp = true → v.verifyEval2On P (batchedKzgSetup P d t alpha) codec T proof sp.commitments st =
          some (true, T.afterTwo codec st ms proof.2.1)) := by
  obtain ⟨s, hs, hspts⟩ : ∃ s, runKzg L (batchedKzgSetup P d t alpha).ck codec (pre ++ hp) = some s ∧
      pts.foldlM (KzgScheme.call L (batchedKzgSetup P d t alpha).ck codec) s = some sp := by
    rw [← List.append_assoc, runKzg_append] at hsp
    exact Option.bind_eq_some_iff.1 hsp
  obtain ⟨v0, hv0⟩ : ∃ v, runKzg L (batchedKzgSetup P d t alpha).ck codec (pre ++ szs) = some v := by
    obtain ⟨v, hv⟩ := kzg_size_run (L := L) (batchedKzgSetup P d t alpha).ck codec szs sess.sizeOps o0
    exact ⟨v, by rw [runKzg_append, hpre]; exact hv⟩
  have hfollow := container_points_follow sess s.ev v0.ev (kzg_inv hs).run (kzg_inv hv0).run
  have hnc : ∀ k, ContainerOp.commit k ∉ lpcContainer L pts := by
    intro k hk
    exact (sess.ptsNoCommit k).1 ((committed_container L k _).1 hk)
  rw [kzg_foldlM_eq, kzg_foldlM_noCommit _ _ _ hnc, Option.map_eq_some_iff] at hspts
  obtain ⟨sev, hsev, -⟩ := hspts
  obtain ⟨vev, hvev⟩ := container_follow pts sess.pointOps s.ev v0.ev sev hfollow hsev
  have hvrun : runKzg L (batchedKzgSetup P d t alpha).ck codec (pre ++ (szs ++ pts)) =
      some ⟨vev, v0.commitments, v0.merged⟩ := by
    rw [← List.append_assoc, runKzg_append, hv0, Option.bind_some, kzg_foldlM_eq,
      kzg_foldlM_noCommit _ _ _ hnc, hvev]
    rfl
  have ksess := kzg_session hU hd sess
  have hev : runContainer (lpcContainer L (pre ++ (szs ++ pts))) = some vev := (kzg_inv hvrun).run
  obtain ⟨ev', keys, w⟩ := session_view P alpha d tS codec _ _ ksess sp hsp vev hev
  set ms := viewMsgs keys
      (fun k => (appended k (lpcContainer L (pre ++ (hp ++ pts)))).length)
      (fun k i => (appended k (lpcContainer L (pre ++ (hp ++ pts)))).getD i [])
      (fun k i => requested k i (lpcContainer L (pre ++ (hp ++ pts)))) sp.commitments with hms
  obtain ⟨proof, hp1, hp2⟩ := scheme2_session P d t tS alpha codec hcodec (T.drawTwo st ms) _ _
    ksess ht sp hsp vev hev v0.commitments v0.merged
  have htp : kzgTranscriptAll ev' sp.commitments = some ms := w.prover.transcript sp.commitments w.cmKeys
  have hz : proof.1 = ev'.z := by
    have h := hp1
    simp only [KzgScheme.proofEval2, w.evaluated, Option.bind_eq_bind, Option.bind_some,
      Option.bind_eq_some_iff] at h
    obtain ⟨_, _, _, _, _, _, h⟩ := h
    split_ifs at h
    simp only [Option.bind_eq_some_iff] at h
    obtain ⟨_, _, _, _, h⟩ := h
    split_ifs at h
    simp only [Option.bind_eq_some_iff, Option.some.injEq] at h
    obtain ⟨_, _, h⟩ := h
    rw [← h]
  refine ⟨proof, ms, ev', w.evaluated, htp, hp1, ?_, _, hvrun, ?_⟩
  · intro k hk
    have hk' : k ∈ keys := (w.keysMem k).2 ((committed_container L k _).2 (by
      rw [← List.append_assoc]; exact List.mem_append_left _ hk))
    have hpolys : List.Forall₂ (fun f c => f.Has L A c) (lpcAppended k (pre ++ (hp ++ pts))) (Q k) := by
      rw [← List.append_assoc, lpcAppended_append k (pre ++ hp), (sess.appendedPts k).1, List.append_nil]
      exact sess.polys k
    rw [hz, w.prover.z k hk']
    congr 1
    have hlen : (appended k (lpcContainer L (pre ++ (hp ++ pts)))).length = (Q k).length := by
      rw [appended_container, List.length_map, hpolys.length_eq]
    apply List.ext_getElem (by simp [hlen])
    intro i hi hi'
    have hi : i < (Q k).length := by simpa using hi'
    simp only [List.getElem_map, List.getElem_range, List.getElem_mapIdx, requested_container,
      (sess.requested k i).1]
    apply List.map_congr_left
    intro x _
    rw [appended_container]
    exact (lpcCoeffs_eval hL A le_rfl _ Q k hpolys i hi).1 x
  · intro hfill
    have hne : ∀ k, committed k (lpcContainer L (pre ++ (hp ++ pts))) →
        appended k (lpcContainer L (pre ++ (hp ++ pts))) ≠ [] := by
      intro k hk h0
      have inv := kzg_inv hsp
      have hf := inv.found k hk
      have h1 := List.all_eq_true.1 hfill _ (OMap.find_some_mem hf)
      rw [(container_run _ _ inv.run).polys k, h0] at h1
      simp at h1
    simp only [KzgScheme.verifyEval2On, hz, w.verifier.transcript sp.commitments w.cmKeys,
      Option.bind_eq_bind, Option.bind_some, ← hms, hp2 hne]

theorem kzg2_run_from (T : KzgTranscript S F) (pre ops : List (LpcOp F)) (o0 : KzgScheme F)
    (hpre : runKzg L (batchedKzgSetup P d t alpha).ck codec pre = some o0) :
    (kzg2Comm L P (batchedKzgSetup P d t alpha) codec T).run o0 ops =
      runKzg L (batchedKzgSetup P d t alpha).ck codec (pre ++ ops) := by
  rw [runKzg_append, hpre]
  rfl

theorem kzg2_run_new (T : KzgTranscript S F) (pre : List (LpcOp F)) :
    (kzg2Comm L P (batchedKzgSetup P d t alpha) codec T).run
      (kzg2Comm L P (batchedKzgSetup P d t alpha) codec T).new pre =
      runKzg L (batchedKzgSetup P d t alpha).ck codec pre := kzg_foldlM_eq _ _ _ _

theorem kzg2Comm_opens (hL : L.Lawful A) (hcodec : codec.Lawful) (T : KzgTranscript S F) {U : Finset F}
    (hd : 0 < d) (ht : 0 < t) :
    (kzg2Comm L P (batchedKzgSetup P d t alpha) codec T).Opens (fun f c => f.Has L A c) d (KzgPoints d U)
      (fun _ => True) := by
  intro pre hp szs pts Q sess o0 o st0 st data hpre _ _ hrun
  rw [kzg2_run_new] at hpre
  change (kzg2Comm L P (batchedKzgSetup P d t alpha) codec T).run o0 _ = _ at hrun
  rw [kzg2_run_from T pre _ o0 hpre] at hrun
  obtain ⟨proof, ms, ev, h1, h2, h3, -⟩ := kzg2_session_proof hL hcodec T le_rfl hd ht sess o0 o st hpre hrun
  show (o.proofEval2On _ codec T st).isSome
  simp only [KzgScheme.proofEval2On, h1, h2, h3, Option.bind_eq_bind, Option.bind_some, Option.isSome_some]

theorem kzg2Filled_complete (hL : L.Lawful A) (hcodec : codec.Lawful) (T : KzgTranscript S F) {U : Finset F}
    (hd : 0 < d) (ht : 0 < t) :
    (kzg2Filled L P (batchedKzgSetup P d t alpha) codec T).Complete (fun f c => f.Has L A c) d (KzgPoints d U)
      (fun _ => True) := by
  intro pre hp szs pts Q sess o0 o st0 st st' data proof hpre _ _ hrun hproof
  change (kzg2Comm L P (batchedKzgSetup P d t alpha) codec T).run
    (kzg2Comm L P (batchedKzgSetup P d t alpha) codec T).new pre = _ at hpre
  rw [kzg2_run_new] at hpre
  change (kzg2Comm L P (batchedKzgSetup P d t alpha) codec T).run o0 _ = _ at hrun
  change o.proofEval2Filled _ codec T st = _ at hproof
  rw [kzg2_run_from T pre _ o0 hpre] at hrun
  obtain ⟨proof', ms, ev, h1, h2, h3, hz, v, hv, hver⟩ :=
    kzg2_session_proof hL hcodec T le_rfl hd ht sess o0 o st hpre hrun
  simp only [KzgScheme.proofEval2Filled, h1, h2, h3, Option.bind_eq_bind, Option.bind_some] at hproof
  split_ifs at hproof with hfill
  rw [Option.some.injEq, Prod.mk.injEq] at hproof
  obtain ⟨rfl, rfl⟩ := hproof
  refine ⟨hz, v, ?_, ?_⟩
  · show (kzg2Comm L P (batchedKzgSetup P d t alpha) codec T).run o0 _ = _
    rw [kzg2_run_from T pre _ o0 hpre, hv]
  · intro coms hsorted hcoms
    have inv := kzg_inv hrun
    have : coms = o.commitments := by
      refine OMap.ext_sorted hsorted inv.sorted fun k => ?_
      ext com
      rw [hcoms k com]
      show _ ∧ o.commitments.find k = some com ↔ _
      simp only [and_iff_right_iff_imp]
      intro hcom
      by_contra hno
      rw [inv.absent k (by
        rw [committed_container, ← List.append_assoc, List.mem_append]
        simp only [(sess.ptsNoCommit k).1, or_false]; exact hno)] at hcom
      simp at hcom
    rw [this]
    exact hver hfill

end Crypto3Zk
