import Verif.Lemmas.PlaceholderKzg
import Verif.Lemmas.FRISound

/-!
# KZG with values that nobody asked for

`verify_eval` (kzg.hpp:837) goes through the points of a batch, not through the values claimed in the proof: values
after those are absorbed by the transcript and otherwise ignored.
-/

set_option linter.unusedSectionVars false

namespace Crypto3Zk

variable {F : Type} [Field F]

theorem mapM_mono {X Y : Type} (f g : X → Option Y) (h : ∀ x y, f x = some y → g x = some y) :
    ∀ (l : List X) (r : List Y), l.mapM f = some r → l.mapM g = some r := by
  intro l
  induction l with
  | nil => intro r h; exact h
  | cons x l ih =>
    intro r hr
    simp only [List.mapM_cons, Option.bind_eq_bind, Option.bind_eq_some_iff] at hr ⊢
    obtain ⟨y, hy, ys, hys, hr⟩ := hr
    exact ⟨y, h _ _ hy, ys, ih _ hys, hr⟩

/-- the values of a proof with more of them at the end of the batch `b` -/
def padStorage (b : Nat) (extra : List (List F)) (z : EvalStorage F) : EvalStorage F :=
  OMap.insert z b (OMap.getD z b [] ++ extra)

theorem find_padStorage (b : Nat) (extra : List (List F)) (z : EvalStorage F) (k : Nat) :
    OMap.find (padStorage b extra z) k = if k = b then some (OMap.getD z b [] ++ extra) else OMap.find z k := by
  unfold padStorage
  rw [OMap.find_insert]

theorem getPoly_padStorage (b : Nat) (extra : List (List F)) (z : EvalStorage F) (k i : Nat) (v : List F)
    (h : z.getPoly k i = some v) : (padStorage b extra z).getPoly k i = some v := by
  unfold EvalStorage.getPoly at h ⊢
  rw [find_padStorage]
  obtain ⟨l, hl, h⟩ := Option.bind_eq_some_iff.1 h
  split_ifs with hk
  · subst hk
    have hl' : OMap.find z k = some l := hl
    obtain ⟨hi, -⟩ := List.getElem?_eq_some_iff.1 h
    simp only [OMap.getD, hl', Option.getD_some, Option.bind_eq_bind, Option.bind_some]
    rw [List.getElem?_append_left hi]
    exact h
  · exact Option.bind_eq_some_iff.2 ⟨l, hl, h⟩

theorem get_padStorage (b : Nat) (extra : List (List F)) (z : EvalStorage F) (k i j : Nat) (v : F)
    (h : z.get k i j = some v) : (padStorage b extra z).get k i j = some v := by
  unfold EvalStorage.get at h ⊢
  obtain ⟨l, hl, h⟩ := Option.bind_eq_some_iff.1 h
  exact Option.bind_eq_some_iff.2 ⟨l, getPoly_padStorage _ _ _ _ _ _ hl, h⟩

theorem getU_padStorage (b : Nat) (extra : List (List F)) (z : EvalStorage F) (ev : PolysEvaluator F) (k i : Nat)
    (u : List F) (h : getU ⟨z, ev.polys, ev.locked, ev.points⟩ k i = some u) :
    getU ⟨padStorage b extra z, ev.polys, ev.locked, ev.points⟩ k i = some u := by
  unfold getU at h ⊢
  simp only [Option.bind_eq_bind, Option.bind_eq_some_iff, EvalStorage.pointsNumber, Option.map_eq_some_iff,
    Option.ite_none_right_eq_some] at h ⊢
  obtain ⟨batch, h1, pts, h2, m, ⟨w, hw, rfl⟩, h4, zs, hzs, h5⟩ := h
  exact ⟨batch, h1, pts, h2, _, ⟨w, getPoly_padStorage _ _ _ _ _ _ hw, rfl⟩, h4, zs,
    getPoly_padStorage _ _ _ _ _ _ hzs, h5⟩

theorem transcript_padStorage (b : Nat) (extra : List (List F)) (z : EvalStorage F) (ev : PolysEvaluator F)
    (coms : OMap (List UInt8)) (ms : List (KzgMsg F))
    (h : kzgTranscriptAll ⟨z, ev.polys, ev.locked, ev.points⟩ coms = some ms) :
    ∃ ms', kzgTranscriptAll ⟨padStorage b extra z, ev.polys, ev.locked, ev.points⟩ coms = some ms' := by
  unfold kzgTranscriptAll at h ⊢
  obtain ⟨l, hl, -⟩ := Option.bind_eq_some_iff.1 h
  suffices hs : ∀ (ks : List Nat) l, (ks.mapM fun k => kzgTranscript ⟨z, ev.polys, ev.locked, ev.points⟩ coms k) =
      some l → ∃ l', (ks.mapM fun k => kzgTranscript ⟨padStorage b extra z, ev.polys, ev.locked, ev.points⟩ coms k) =
      some l' by
    obtain ⟨l', hl'⟩ := hs _ _ hl
    exact ⟨_, Option.bind_eq_some_iff.2 ⟨l', hl', rfl⟩⟩
  intro ks
  induction ks with
  | nil => intro l _; exact ⟨[], rfl⟩
  | cons k ks ih =>
    intro l hl
    simp only [List.mapM_cons, Option.bind_eq_bind, Option.bind_eq_some_iff] at hl
    obtain ⟨m, hm, ms, hms, -⟩ := hl
    obtain ⟨ms', hms'⟩ := ih _ hms
    suffices hk : ∃ m', kzgTranscript ⟨padStorage b extra z, ev.polys, ev.locked, ev.points⟩ coms k = some m' by
      obtain ⟨m', hm'⟩ := hk
      refine ⟨m' :: ms', ?_⟩
      simp only [List.mapM_cons, hm', hms', Option.bind_eq_bind, Option.bind_some]
      rfl
    unfold kzgTranscript at hm ⊢
    simp only [Option.bind_eq_bind, Option.bind_eq_some_iff] at hm
    obtain ⟨zs, hzs, us, hus, -⟩ := hm
    have hus' := mapM_mono _ _ (fun i u => getU_padStorage b extra z ev k i u) _ _ hus
    have hz' : ∃ zs', OMap.find (padStorage b extra z) k = some zs' := by
      rw [find_padStorage]
      split_ifs
      · exact ⟨_, rfl⟩
      · exact ⟨zs, hzs⟩
    obtain ⟨zs', hzs'⟩ := hz'
    refine ⟨_, Option.bind_eq_some_iff.2 ⟨zs', hzs', Option.bind_eq_some_iff.2 ⟨us, hus', rfl⟩⟩⟩

variable [LinearOrder F] {S G1 G2 GT : Type} [AddCommGroup G1] [Module F G1]
  [AddCommGroup G2] [Module F G2] [AddCommGroup GT] [Module F GT] [DecidableEq GT]

/-- A proof that is accepted for a challenge is accepted with more values, if the challenge is the same. -/
theorem verifyEval_padStorage (P : Pairing F G1 G2 GT) (pp : BatchedKzgParams G1 G2) (codec : PointCodec G1)
    (b : Nat) (extra : List (List F)) (s : KzgScheme F) (z : EvalStorage F) (pi : G1) (coms : OMap (List UInt8))
    (gamma : F) (chal : List (KzgMsg F) → F) (ms : List (KzgMsg F))
    (hms : kzgTranscriptAll ⟨padStorage b extra z, s.ev.polys, s.ev.locked, s.ev.points⟩ coms = some ms)
    (hg : chal ms = gamma) (v : Bool)
    (h : KzgScheme.verifyEval P pp codec (fun _ => gamma) s (z, pi) coms = some v) :
    KzgScheme.verifyEval P pp codec chal s (padStorage b extra z, pi) coms = some v := by
  unfold KzgScheme.verifyEval at h ⊢
  simp only [Option.bind_eq_bind, Option.bind_eq_some_iff] at h ⊢
  obtain ⟨_, -, items, hitems, st, hst, r, hr, h⟩ := h
  refine ⟨ms, hms, items, ?_, st, by rw [hg]; exact hst, r, hr, h⟩
  unfold verifierItems at hitems ⊢
  simp only [Option.bind_eq_bind, Option.bind_eq_some_iff] at hitems ⊢
  obtain ⟨per, hper, h⟩ := hitems
  refine ⟨per, ?_, h⟩
  refine mapM_mono _ _ (fun e l hl => ?_) _ _ hper
  simp only [Option.bind_eq_some_iff] at hl ⊢
  obtain ⟨batch, hb, hl⟩ := hl
  refine ⟨batch, hb, mapM_mono _ _ (fun i x hx => ?_) _ _ hl⟩
  simp only [Option.bind_eq_some_iff] at hx ⊢
  obtain ⟨cm, hcm, u, hu, hx⟩ := hx
  exact ⟨cm, hcm, u, getU_padStorage _ _ _ _ _ _ _ hu, hx⟩

/-- The scheme with a prover that adds values of its choice to a batch: the verifier sees them, here they are left
out of the proof. -/
def paddedComm (L : FftLib F) (P : Pairing F G1 G2 GT) (pp : BatchedKzgParams G1 G2) (codec : PointCodec G1)
    (T : KzgTranscript S F) (b : Nat) (extra : List (List F)) :
    CommScheme F S (List UInt8) G1 Bool (KzgScheme F) :=
  { kzgComm L P pp codec T with
    proofEval := fun s st => do
      let ev ← s.ev.evalPolys
      let ms ← kzgTranscriptAll ⟨padStorage b extra ev.z, ev.polys, ev.locked, ev.points⟩ s.commitments
      let proof ← s.proofEval pp.ck fun _ => (T.draw st ms).1
      some (proof, (T.draw st ms).2)
    verifyEval := fun s proof coms st =>
      (kzgComm L P pp codec T).verifyEval s (padStorage b extra proof.1, proof.2) coms st }

variable {L : FftLib F} {A : Nat} {P : Pairing F G1 G2 GT} {d t : Nat} {alpha : F} {codec : PointCodec G1}

theorem padded_session_proof (hL : L.Lawful A) (hcodec : codec.Lawful) (T : KzgTranscript S F) (b : Nat)
    (extra : List (List F)) {U : Finset F}
    (hU : U.card ≤ t) (hd : 0 < d) {pre hp szs pts : List (LpcOp F)} {Q : Nat → List (List F)}
    (sess : SchemeSession (fun f c => f.Has L A c) d (KzgPoints d U) pre hp szs pts Q)
    (o0 sp : KzgScheme F) (st : S)
    (hpre : runKzg L (batchedKzgSetup P d t alpha).ck codec pre = some o0)
    (hsp : runKzg L (batchedKzgSetup P d t alpha).ck codec (pre ++ (hp ++ pts)) = some sp) :
    ∃ proof st', (paddedComm L P (batchedKzgSetup P d t alpha) codec T b extra).proofEval sp st =
        some (proof, st') ∧
      (∀ k, LpcOp.commit k ∈ pre ++ hp → proof.1.find k =
        some ((Q k).mapIdx fun i c => (lpcRequested k i pts).map (evalPoly c))) ∧
      ∃ v, runKzg L (batchedKzgSetup P d t alpha).ck codec (pre ++ (szs ++ pts)) = some v ∧
        v.verifyEvalOn P (batchedKzgSetup P d t alpha) codec T (padStorage b extra proof.1, proof.2)
          sp.commitments st = some (true, st') := by
  -- what an honest prover opens
  obtain ⟨proof0, st0, hproof0, hfind, v, hv, -⟩ := kzg_session_proof hL hcodec T hU hd sess o0 sp st hpre hsp
  have ksess := kzg_session hU hd sess
  have hev : runContainer (lpcContainer L (pre ++ (szs ++ pts))) = some v.ev := (kzg_inv hv).run
  obtain ⟨ev', keys, w⟩ := session_view P alpha d t codec _ _ ksess sp hsp v.ev hev
  have hz : ∀ chal proof, sp.proofEval (batchedKzgSetup P d t alpha).ck chal = some proof → proof.1 = ev'.z := by
    intro chal proof h
    simp only [KzgScheme.proofEval, w.evaluated, Option.bind_eq_bind, Option.bind_some,
      Option.bind_eq_some_iff] at h
    obtain ⟨_, _, _, _, _, _, h⟩ := h
    simp only [Option.some.injEq] at h
    rw [← h]
  have hz0 : proof0.1 = ev'.z := by
    simp only [KzgScheme.proofEvalOn, w.evaluated, Option.bind_eq_bind, Option.bind_some,
      Option.bind_eq_some_iff] at hproof0
    obtain ⟨_, _, p, hp', h⟩ := hproof0
    simp only [Option.some.injEq, Prod.mk.injEq] at h
    rw [← h.1]
    exact hz _ _ hp'
  -- the messages
  obtain ⟨ms, hms⟩ := transcript_padStorage b extra ev'.z ev' sp.commitments _
    (w.prover.transcript sp.commitments w.cmKeys)
  obtain ⟨ms', hms'⟩ := transcript_padStorage b extra ev'.z v.ev sp.commitments _
    (w.verifier.transcript sp.commitments w.cmKeys)
  have hpts : ∀ k ∈ keys, OMap.find ev'.points k = OMap.find v.ev.points k := fun k hk =>
    (w.prover.points k hk).trans (w.verifier.points k hk).symm
  have hsame : ms' = ms := by
    have : kzgTranscriptAll ⟨padStorage b extra ev'.z, v.ev.polys, v.ev.locked, v.ev.points⟩ sp.commitments =
        kzgTranscriptAll ⟨padStorage b extra ev'.z, ev'.polys, ev'.locked, ev'.points⟩ sp.commitments := by
      unfold kzgTranscriptAll
      congr 1
      refine mapM_congr _ _ _ fun k hk => ?_
      rw [w.cmKeys] at hk
      simp only [kzgTranscript, getU, OMap.getD, hpts k hk]
    rw [hms', hms, Option.some_inj] at this
    exact this
  subst hsame
  obtain ⟨proof, hp1, hp2⟩ := C40_scheme_complete P d t alpha codec hcodec (fun _ => (T.draw st ms').1) _ _
    ksess sp hsp v.ev hev v.commitments v.merged
  have hzp := hz _ _ hp1
  refine ⟨proof, (T.draw st ms').2, ?_, ?_, v, hv, ?_⟩
  · simp only [paddedComm, w.evaluated, Option.bind_eq_bind, Option.bind_some, hms, hp1]
  · intro k hk
    rw [hzp, ← hz0]
    exact hfind k hk
  · have hver := verifyEval_padStorage P (batchedKzgSetup P d t alpha) codec b extra v proof.1 proof.2
      sp.commitments _ (fun ms => (T.draw st ms).1) ms' (by rw [hzp]; exact hms') rfl true hp2
    simp only [KzgScheme.verifyEvalOn, hzp, hms', Option.bind_eq_bind, Option.bind_some]
    rw [hzp] at hver
    rw [hver]
    rfl

theorem paddedComm_opens (hL : L.Lawful A) (hcodec : codec.Lawful) (T : KzgTranscript S F) (b : Nat)
    (extra : List (List F)) {U : Finset F} (hU : U.card ≤ t) (hd : 0 < d) :
    (paddedComm L P (batchedKzgSetup P d t alpha) codec T b extra).Opens (fun f c => f.Has L A c) d (KzgPoints d U)
      (fun _ => True) := by
  intro pre hp szs pts Q sess o0 o st0 st data hpre _ _ hrun
  replace hpre := (kzg_run_new T pre).symm.trans hpre
  change (kzgComm L P (batchedKzgSetup P d t alpha) codec T).run o0 _ = _ at hrun
  rw [kzg_run_from T pre _ o0 hpre] at hrun
  obtain ⟨proof, st', h, -⟩ := padded_session_proof hL hcodec T b extra hU hd sess o0 o st hpre hrun
  rw [h]
  rfl

theorem paddedComm_complete (hL : L.Lawful A) (hcodec : codec.Lawful) (T : KzgTranscript S F) (b : Nat)
    (extra : List (List F)) {U : Finset F} (hU : U.card ≤ t) (hd : 0 < d) :
    (paddedComm L P (batchedKzgSetup P d t alpha) codec T b extra).Complete (fun f c => f.Has L A c) d
      (KzgPoints d U) (fun _ => True) := by
  intro pre hp szs pts Q sess o0 o st0 st st' data proof hpre _ _ hrun hproof
  replace hpre := (kzg_run_new T pre).symm.trans hpre
  change (kzgComm L P (batchedKzgSetup P d t alpha) codec T).run o0 _ = _ at hrun
  rw [kzg_run_from T pre _ o0 hpre] at hrun
  obtain ⟨proof', st'', h, hz, v, hv, hver⟩ := padded_session_proof hL hcodec T b extra hU hd sess o0 o st hpre hrun
  rw [h, Option.some.injEq, Prod.mk.injEq] at hproof
  obtain ⟨rfl, rfl⟩ := hproof
  refine ⟨hz, v, ?_, ?_⟩
  · show (kzgComm L P (batchedKzgSetup P d t alpha) codec T).run o0 _ = _
    rw [kzg_run_from T pre _ o0 hpre, hv]
  · intro coms hsorted hcoms
    have inv := kzg_inv hrun
    have : coms = o.commitments := by
      refine OMap.ext_sorted hsorted inv.sorted fun k => ?_
      ext com
      rw [hcoms k com]
      show _ ∧ o.commitments.find k = some com ↔ _
      simp only [and_iff_right_iff_imp]
      intro hcom
      by_contra hno
      rw [inv.absent k (by
        rw [committed_container, ← List.append_assoc, List.mem_append]
        simp only [(sess.ptsNoCommit k).1, or_false]; exact hno)] at hcom
      simp at hcom
    rw [this]
    exact hver

end Crypto3Zk
