import Verif.Lemmas.PlaceholderKzg2
import Verif.Lemmas.PlaceholderKzgPadded

/-!
# The second KZG scheme with values that nobody asked for

As in `kzg_commitment_scheme`, `verify_eval` (kzg_v2.hpp:347) goes through the points of a batch, not through the
values claimed in the proof.
-/

set_option linter.unusedSectionVars false

namespace Crypto3Zk

variable {F : Type} [Field F] [LinearOrder F] {S G1 G2 GT : Type} [AddCommGroup G1] [Module F G1]
  [AddCommGroup G2] [Module F G2] [AddCommGroup GT] [Module F GT] [DecidableEq GT]

/-- A proof that is accepted for two challenges is accepted with more values, if the challenges are the same. -/
theorem verifyEval2_padStorage (P : Pairing F G1 G2 GT) (pp : BatchedKzgParams G1 G2) (codec : PointCodec G1)
    (b : Nat) (extra : List (List F)) (s : KzgScheme F) (z : EvalStorage F) (pi : G1 × G1) (coms : OMap (List UInt8))
    (chal0 chal : List (KzgMsg F) → F) (ms0 ms : List (KzgMsg F))
    (hms0 : kzgTranscriptAll ⟨z, s.ev.polys, s.ev.locked, s.ev.points⟩ coms = some ms0)
    (hms : kzgTranscriptAll ⟨padStorage b extra z, s.ev.polys, s.ev.locked, s.ev.points⟩ coms = some ms)
    (h1 : chal ms = chal0 ms0)
    (h2 : chal (ms ++ [.bytes (codec.enc pi.1)]) = chal0 (ms0 ++ [.bytes (codec.enc pi.1)])) (v : Bool)
    (h : KzgScheme.verifyEval2 P pp codec chal0 s (z, pi) coms = some v) :
    KzgScheme.verifyEval2 P pp codec chal s (padStorage b extra z, pi) coms = some v := by
  unfold KzgScheme.verifyEval2 at h ⊢
  simp only [Option.bind_eq_bind, Option.bind_eq_some_iff] at h ⊢
  obtain ⟨ms', hms', u, hu, items, hitems, st, hst, r, hr, h⟩ := h
  obtain rfl := Option.some_inj.1 (hms0.symm.trans hms')
  refine ⟨ms, hms, u, hu, items, ?_, st, by rw [h1, h2]; exact hst, r, hr, by rw [h2]; exact h⟩
  unfold verifierItems at hitems ⊢
  simp only [Option.bind_eq_bind, Option.bind_eq_some_iff] at hitems ⊢
  obtain ⟨per, hper, h⟩ := hitems
  refine ⟨per, ?_, h⟩
  refine mapM_mono _ _ (fun e l hl => ?_) _ _ hper
  simp only [Option.bind_eq_some_iff] at hl ⊢
  obtain ⟨batch, hb, hl⟩ := hl
  refine ⟨batch, hb, mapM_mono _ _ (fun i x hx => ?_) _ _ hl⟩
  simp only [Option.bind_eq_some_iff] at hx ⊢
  obtain ⟨cm, hcm, u, hu, hx⟩ := hx
  exact ⟨cm, hcm, u, getU_padStorage _ _ _ _ _ _ _ hu, hx⟩

/-- The challenges that follow the messages `ms`, for a prover that has the messages `ms0` instead. -/
def KzgTranscript.drawTwoAs (T : KzgTranscript S F) (st : S) (ms ms0 l : List (KzgMsg F)) : F :=
  if l.length ≤ ms0.length then (T.draw st ms).1 else (T.draw (T.draw st ms).2 (l.drop ms0.length)).1

/-- The scheme with a prover that adds values of its choice to a batch, and a verifier that sees them and accepts if a
committed batch is empty. -/
def padded2Comm (L : FftLib F) (P : Pairing F G1 G2 GT) (pp : BatchedKzgParams G1 G2) (codec : PointCodec G1)
    (T : KzgTranscript S F) (b : Nat) (extra : List (List F)) :
    CommScheme F S (List UInt8) (G1 × G1) Bool (KzgScheme F) :=
  { kzg2Comm L P pp codec T with
    proofEval := fun s st => do
      let ev ← s.ev.evalPolys
      let ms0 ← kzgTranscriptAll ev s.commitments
      let ms ← kzgTranscriptAll ⟨padStorage b extra ev.z, ev.polys, ev.locked, ev.points⟩ s.commitments
      let proof ← s.proofEval2 pp.ck codec (T.drawTwoAs st ms ms0)
      some (proof, T.afterTwo codec st ms proof.2.1)
    verifyEval := fun s proof coms st =>
      if (batchesNonempty s.ev coms).isSome then
        (kzg2Comm L P pp codec T).verifyEval s (padStorage b extra proof.1, proof.2) coms st
      else do
        let ms ← kzgTranscriptAll ⟨padStorage b extra proof.1, s.ev.polys, s.ev.locked, s.ev.points⟩ coms
        some (true, T.afterTwo codec st ms proof.2.1) }

variable {L : FftLib F} {A : Nat} {P : Pairing F G1 G2 GT} {d t tS : Nat} {alpha : F} {codec : PointCodec G1}

theorem padded2_session_proof (hL : L.Lawful A) (hcodec : codec.Lawful) (T : KzgTranscript S F) (b : Nat)
    (extra : List (List F)) {U : Finset F}
    (hU : U.card ≤ tS) (hd : 0 < d) (ht : 0 < t) {pre hp szs pts : List (LpcOp F)} {Q : Nat → List (List F)}
    (sess : SchemeSession (fun f c => f.Has L A c) d (KzgPoints d U) pre hp szs pts Q)
    (o0 sp : KzgScheme F) (st : S)
    (hpre : runKzg L (batchedKzgSetup P d t alpha).ck codec pre = some o0)
    (hsp : runKzg L (batchedKzgSetup P d t alpha).ck codec (pre ++ (hp ++ pts)) = some sp) :
    ∃ proof st', (padded2Comm L P (batchedKzgSetup P d t alpha) codec T b extra).proofEval sp st =
        some (proof, st') ∧
      (∀ k, LpcOp.commit k ∈ pre ++ hp → proof.1.find k =
        some ((Q k).mapIdx fun i c => (lpcRequested k i pts).map (evalPoly c))) ∧
      ∃ v, runKzg L (batchedKzgSetup P d t alpha).ck codec (pre ++ (szs ++ pts)) = some v ∧
        (padded2Comm L P (batchedKzgSetup P d t alpha) codec T b extra).verifyEval v proof
          sp.commitments st = some (true, st') := by
  -- what an honest prover opens
  obtain ⟨proof0, ms00, ev0, hev0, -, hproof0, hfind, v, hv, -⟩ :=
    kzg2_session_proof hL hcodec T hU hd ht sess o0 sp st hpre hsp
  have ksess := kzg_session hU hd sess
  have hev : runContainer (lpcContainer L (pre ++ (szs ++ pts))) = some v.ev := (kzg_inv hv).run
  obtain ⟨ev', keys, w⟩ := session_view P alpha d tS codec _ _ ksess sp hsp v.ev hev
  have hz : ∀ chal proof, sp.proofEval2 (batchedKzgSetup P d t alpha).ck codec chal = some proof →
      proof.1 = ev'.z := by
    intro chal proof h
    simp only [KzgScheme.proofEval2, w.evaluated, Option.bind_eq_bind, Option.bind_some,
      Option.bind_eq_some_iff] at h
    obtain ⟨_, _, _, _, _, _, h⟩ := h
    split_ifs at h
    simp only [Option.bind_eq_some_iff] at h
    obtain ⟨_, _, _, _, h⟩ := h
    split_ifs at h
    simp only [Option.bind_eq_some_iff, Option.some.injEq] at h
    obtain ⟨_, _, h⟩ := h
    rw [← h]
  have hz0 : proof0.1 = ev'.z := hz _ _ hproof0
  -- the messages
  obtain ⟨ms0, hms0, hms0'⟩ : ∃ ms0, kzgTranscriptAll ev' sp.commitments = some ms0 ∧
      kzgTranscriptAll ⟨ev'.z, v.ev.polys, v.ev.locked, v.ev.points⟩ sp.commitments = some ms0 :=
    ⟨_, w.prover.transcript sp.commitments w.cmKeys, w.verifier.transcript sp.commitments w.cmKeys⟩
  obtain ⟨ms, hms⟩ := transcript_padStorage b extra ev'.z ev' sp.commitments _ hms0
  obtain ⟨ms', hms'⟩ := transcript_padStorage b extra ev'.z v.ev sp.commitments _ hms0'
  have hpts : ∀ k ∈ keys, OMap.find ev'.points k = OMap.find v.ev.points k := fun k hk =>
    (w.prover.points k hk).trans (w.verifier.points k hk).symm
  have hsame : ms' = ms := by
    have : kzgTranscriptAll ⟨padStorage b extra ev'.z, v.ev.polys, v.ev.locked, v.ev.points⟩ sp.commitments =
        kzgTranscriptAll ⟨padStorage b extra ev'.z, ev'.polys, ev'.locked, ev'.points⟩ sp.commitments := by
      unfold kzgTranscriptAll
      congr 1
      refine mapM_congr _ _ _ fun k hk => ?_
      rw [w.cmKeys] at hk
      simp only [kzgTranscript, getU, OMap.getD, hpts k hk]
    rw [hms', hms, Option.some_inj] at this
    exact this
  subst hsame
  obtain ⟨proof, hp1, hp2⟩ := scheme2_session P d t tS alpha codec hcodec (T.drawTwoAs st ms' ms0) _ _
    ksess ht sp hsp v.ev hev v.commitments v.merged
  have hzp := hz _ _ hp1
  refine ⟨proof, T.afterTwo codec st ms' proof.2.1, ?_, ?_, v, hv, ?_⟩
  · simp only [padded2Comm, w.evaluated, Option.bind_eq_bind, Option.bind_some, hms, hms0, hp1]
  · intro k hk
    rw [hzp, ← hz0]
    exact hfind k hk
  · have hms'' : kzgTranscriptAll ⟨padStorage b extra proof.1, v.ev.polys, v.ev.locked, v.ev.points⟩
        sp.commitments = some ms' := by rw [hzp]; exact hms'
    by_cases hb : (batchesNonempty v.ev sp.commitments).isSome
    · have hne : ∀ k, committed k (lpcContainer L (pre ++ (hp ++ pts))) →
          appended k (lpcContainer L (pre ++ (hp ++ pts))) ≠ [] := by
        intro k hk h0
        have hf := (kzg_inv hsp).found k hk
        unfold batchesNonempty at hb
        split_ifs at hb with hall
        · have h1 := List.all_eq_true.1 hall _ (OMap.find_some_mem hf)
          have h2 : OMap.find v.ev.points k = _ := w.verifier.points k ((w.keysMem k).2 hk)
          simp [OMap.getD, h2, h0] at h1
        · simp at hb
      have hver := verifyEval2_padStorage P (batchedKzgSetup P d t alpha) codec b extra v proof.1 proof.2
        sp.commitments (T.drawTwoAs st ms' ms0) (T.drawTwo st ms') ms0 ms' (by rw [hzp]; exact hms0') hms''
        (by simp [KzgTranscript.drawTwo, KzgTranscript.drawTwoAs])
        (by simp [KzgTranscript.drawTwo, KzgTranscript.drawTwoAs]) true (hp2 hne)
      show (if _ then _ else _) = _
      rw [if_pos hb]
      show v.verifyEval2On P _ codec T _ _ _ = _
      simp only [KzgScheme.verifyEval2On, hms'', Option.bind_eq_bind, Option.bind_some]
      rw [hver]
      rfl
    · show (if _ then _ else _) = _
      rw [if_neg hb, hms'']
      rfl

theorem padded2Comm_opens (hL : L.Lawful A) (hcodec : codec.Lawful) (T : KzgTranscript S F) (b : Nat)
    (extra : List (List F)) {U : Finset F} (hd : 0 < d) (ht : 0 < t) :
    (padded2Comm L P (batchedKzgSetup P d t alpha) codec T b extra).Opens (fun f c => f.Has L A c) d (KzgPoints d U)
      (fun _ => True) := by
  intro pre hp szs pts Q sess o0 o st0 st data hpre _ _ hrun
  replace hpre := (kzg2_run_new T pre).symm.trans hpre
  change (kzg2Comm L P (batchedKzgSetup P d t alpha) codec T).run o0 _ = _ at hrun
  rw [kzg2_run_from T pre _ o0 hpre] at hrun
  obtain ⟨proof, st', h, -⟩ := padded2_session_proof hL hcodec T b extra le_rfl hd ht sess o0 o st hpre hrun
  rw [h]
  rfl

theorem padded2Comm_complete (hL : L.Lawful A) (hcodec : codec.Lawful) (T : KzgTranscript S F) (b : Nat)
    (extra : List (List F)) {U : Finset F} (hd : 0 < d) (ht : 0 < t) :
    (padded2Comm L P (batchedKzgSetup P d t alpha) codec T b extra).Complete (fun f c => f.Has L A c) d
      (KzgPoints d U) (fun _ => True) := by
  intro pre hp szs pts Q sess o0 o st0 st st' data proof hpre _ _ hrun hproof
  replace hpre := (kzg2_run_new T pre).symm.trans hpre
  change (kzg2Comm L P (batchedKzgSetup P d t alpha) codec T).run o0 _ = _ at hrun
  rw [kzg2_run_from T pre _ o0 hpre] at hrun
  obtain ⟨proof', st'', h, hz, v, hv, hver⟩ :=
    padded2_session_proof hL hcodec T b extra le_rfl hd ht sess o0 o st hpre hrun
  rw [h, Option.some.injEq, Prod.mk.injEq] at hproof
  obtain ⟨rfl, rfl⟩ := hproof
  refine ⟨hz, v, ?_, ?_⟩
  · show (kzg2Comm L P (batchedKzgSetup P d t alpha) codec T).run o0 _ = _
    rw [kzg2_run_from T pre _ o0 hpre, hv]
  · intro coms hsorted hcoms
    have inv := kzg_inv hrun
    have : coms = o.commitments := by
      refine OMap.ext_sorted hsorted inv.sorted fun k => ?_
      ext com
      rw [hcoms k com]
      show _ ∧ o.commitments.find k = some com ↔ _
      simp only [and_iff_right_iff_imp]
      intro hcom
      by_contra hno
      rw [inv.absent k (by
        rw [committed_container, ← List.append_assoc, List.mem_append]
        simp only [(sess.ptsNoCommit k).1, or_false]; exact hno)] at hcom
      simp at hcom
    rw [this]
    exact hver

end Crypto3Zk
