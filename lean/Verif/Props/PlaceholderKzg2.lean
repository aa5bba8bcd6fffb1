import Verif.Props.PlaceholderKzg
import Verif.Lemmas.PlaceholderKzg2
import Verif.Lemmas.PlaceholderKzgSound

/-!
# C106: placeholder with `kzg_commitment_scheme_v2` as the commitment scheme

For a table that satisfies the circuit and has a witness or a public input column, the prover produces a proof and
the verifier accepts it, whatever the trapdoor of the key, the serialisation of points and the transcripts are; a key
with one element on the verifier's side is enough. Without such a column the verifier divides by zero.
-/

set_option linter.unusedSectionVars false

namespace Crypto3Zk

open Polynomial

section complete

variable {F : Type} [Field F] [LinearOrder F] {L : FftLib F} {A n : Nat} {fuel : Nat} {d : TableDesc}
  {c : Circuit F} {order : List PlonkVar} {t : PlonkTable F} {mqc : Nat}

theorem overlapLoop_length (usable k i : Nat) (l l' : List (List F)) (h : overlapLoop usable k i l = some l') :
    l'.length = l.length := by
  induction k generalizing i l with
  | zero => simp only [overlapLoop, Option.some.injEq] at h; rw [h]
  | succ k ih =>
    simp only [overlapLoop, Option.bind_eq_bind, Option.bind_eq_some_iff] at h
    obtain ⟨_, _, _, _, _, _, h⟩ := h
    split_ifs at h
    rw [ih _ _ h, List.length_set]

theorem sortPolynomials_ne_nil {inputs values : List (List F)} {size usable : Nat} {l : List (List F)}
    (h : sortPolynomials inputs values size usable = some l) : l ≠ [] := by
  have key : ∀ s : SortState F, (if s.sorted.length = 0 then none
      else overlapLoop usable (s.sorted.length - 1) 0 s.sorted) = some l → l ≠ [] := by
    intro s h hl
    split_ifs at h with h0
    have := overlapLoop_length _ _ _ _ _ h
    rw [hl] at this
    exact h0 this.symm
  unfold sortPolynomials at h
  obtain ⟨_, -, h⟩ := Option.bind_eq_some_iff.1 h
  obtain ⟨_, -, h⟩ := Option.bind_eq_some_iff.1 h
  obtain ⟨_, -, h⟩ := Option.bind_eq_some_iff.1 h
  obtain ⟨⟨prev, s0⟩, -, h⟩ := Option.bind_eq_some_iff.1 h
  dsimp only at h
  by_cases h1 : prev ≠ 0
  · rw [if_pos h1] at h
    obtain ⟨s, -, h⟩ := Option.bind_eq_some_iff.1 h
    exact key s h
  · rw [if_neg h1] at h
    exact key _ h

theorem quotientSplit_ne_nil {f : List F} {p l g rows mc : Nat} {chunks : List (List F)} (hr : 2 ≤ rows)
    (h : quotientSplit f p l g rows mc = some chunks) : chunks ≠ [] := by
  unfold quotientSplit at h
  rw [if_neg (by omega), storeChunks_eq _ _ _ (Nat.zero_le _)] at h
  split_ifs at h with hle
  simp only [Option.some.injEq] at h
  have hs : 0 < splitPolynomialSize p l g rows mc := by
    unfold splitPolynomialSize
    have h1 : 0 < max (max ((p + 2) * (rows - 1)) ((l + 1) * (rows - 1))) ((g + 1) * (rows - 1)) :=
      lt_of_lt_of_le (Nat.mul_pos (by omega) (by omega)) (le_max_right _ _)
    dsimp only
    generalize max (max ((p + 2) * (rows - 1)) ((l + 1) * (rows - 1))) ((g + 1) * (rows - 1)) = s at h1
    have h5 : 0 < (if s % rows ≠ 0 then s / rows + 1 else s / rows) := by
      split_ifs with h2
      · exact Nat.succ_pos _
      · have h4 : s % rows = 0 := by simpa using h2
        exact Nat.div_pos (Nat.le_of_dvd h1 (Nat.dvd_of_mod_eq_zero h4)) (by omega)
    generalize (if s % rows ≠ 0 then s / rows + 1 else s / rows) = x at h5
    split_ifs with h3
    · exact Nat.pos_of_ne_zero h3.1
    · exact h5
  rw [← h]
  intro h0
  have := congrArg List.length h0
  simp only [List.take_zero, List.nil_append, List.length_append, List.length_drop, List.length_replicate,
    List.length_nil] at this hle
  omega

/-- the batches an honest prover commits are not empty -/
theorem honest_filled {S H G1 G2 GT : Type} [AddCommGroup G1] [Module F G1] [AddCommGroup G2] [Module F G2]
    [AddCommGroup GT] [Module F GT] [DecidableEq GT] {P : Pairing F G1 G2 GT} {dk tk : Nat} {alpha : F}
    {codec : PointCodec G1} {KT : KzgTranscript S F} {T : PlonkTranscript S F H (List UInt8)} {hash : H} {delta : F}
    (hrows : 2 ≤ d.rows) (hcols : t.witnesses ≠ [] ∨ t.publicInputs ≠ [])
    {pd : PublicData F H (List UInt8) Bool} {o0 : KzgScheme F} {Pr' : Type}
    {pe : KzgScheme F → S → Option ((EvalStorage F × Pr') × S)}
    (hp : PreFacts (kzg2Comm L P (batchedKzgSetup P dk tk alpha) codec KT) T L n fuel d c order delta mqc hash t
      (kzg2Comm L P (batchedKzgSetup P dk tk alpha) codec KT).new pd o0)
    {proof : PlaceholderProof F (List UInt8) Pr'} {D : HonestData F S (List UInt8) (KzgScheme F)}
    (R : HonestRun ((kzg2Comm L P (batchedKzgSetup P dk tk alpha) codec KT).withOpening pe) T L n d c order pd t o0
      proof D) : filled D.obj = true := by
  have h0 := hp.run
  rw [kzg2_run_new] at h0
  have h1 := R.run
  change (kzg2Comm L P (batchedKzgSetup P dk tk alpha) codec KT).run o0 _ = _ at h1
  rw [kzg2_run_from KT _ _ o0 h0] at h1
  have inv := kzg_inv h1
  have hpts : ∀ op ∈ D.pts, (∃ k xs, op = .points k xs) ∨ ∃ k i xs, op = .pointsTo k i xs :=
    proverPoints_ops R.points
  refine List.all_eq_true.2 fun e he => ?_
  have hk : LpcOp.commit e.1 ∈ fixedOps L n pd.perm t ++ (honestOps L n c t D.perm D.sorted D.vl D.chunks ++ D.pts) := by
    by_contra hno
    have := inv.absent e.1 (by rw [committed_container]; exact hno)
    have hf := inv.sorted.find_mem he
    rw [this] at hf
    simp at hf
  have hne : lpcAppended e.1 (fixedOps L n pd.perm t ++ (honestOps L n c t D.perm D.sorted D.vl D.chunks ++ D.pts)) ≠ [] := by
    rw [lpcAppended_append, lpcAppended_append, fixedOps_appended, honestOps_appended]
    rw [List.mem_append, List.mem_append, commit_mem_fixedOps, commit_mem_honestOps] at hk
    have hno : LpcOp.commit e.1 ∉ D.pts := by
      intro h
      rcases hpts _ h with ⟨_, _, h⟩ | ⟨_, _, _, h⟩ <;> cases h
    rcases hk with hk | (hk | ⟨hl, hk⟩ | ⟨hcl, hk⟩ | hk) | hk
    · rw [hk]; simp
    · rw [hk]
      rcases hcols with h | h <;> simp [h]
    · have : D.sorted ≠ [] := by
        rcases R.lookupCase with ⟨h, _⟩ | ⟨_, commit, res, com, hr, _, _, _, hs, _⟩
        · exact absurd h hl
        · obtain ⟨_, _, _, _, _, _, _, _, _, R'⟩ := lookupProve_run _ _ _ n t _ _ _ _ res hr
          rw [hs]
          exact sortPolynomials_ne_nil R'.h_sorted
      rw [hk]; simp [hl, this]
    · have : D.perm ≠ [] ∨ D.vl ≠ [] := by
        rcases hcl with h | h
        · left
          rcases R.permCase with ⟨h', _⟩ | ⟨_, gi, res, _, _, hs, _⟩
          · exact absurd h' h
          · rw [hs]; simp
        · right
          rcases R.lookupCase with ⟨h', _⟩ | ⟨_, commit, res, com, hr, _, _, _, _, hs, _⟩
          · exact absurd h' h
          · rw [hs]; simp
      rw [hk]
      rcases this with h | h <;> simp [h]
    · have := quotientSplit_ne_nil hrows R.chunks
      rw [hk]; simp [this]
    · exact absurd hk hno
  rw [(container_run _ _ inv.run).polys e.1, appended_container]
  simpa using hne

/-- **C106**, finding: if a proof has no value for a witness or public input column, the verifier divides by zero
when it opens; its verdict is undefined. -/
theorem C106_empty_variable_batch {S H G1 G2 GT : Type} [AddCommGroup G1] [Module F G1] [AddCommGroup G2]
    [Module F G2] [AddCommGroup GT] [Module F GT] [DecidableEq GT] {P : Pairing F G1 G2 GT} {dk tk : Nat} {alpha : F}
    {codec : PointCodec G1} {KT : KzgTranscript S F} {T : PlonkTranscript S F H (List UInt8)} {hash : H} {delta : F}
    {pd : PublicData F H (List UInt8) Bool} {o0 : KzgScheme F}
    {C : CommScheme F S (List UInt8) (G1 × G1) Bool (KzgScheme F)}
    (hC : C = kzg2Comm L P (batchedKzgSetup P dk tk alpha) codec KT)
    (hpre : placeholderPreprocess C T L n fuel d c order delta mqc hash t C.new = some (pd, o0))
    (proof : PlaceholderProof F (List UInt8) (G1 × G1))
    (hsize : proof.eval.1.batchSize VARIABLE_BATCH = some 0) (asserts : Bool) :
    placeholderVerify C T L n asserts d c pd.common proof o0 = none := by
  subst hC
  have h0 := (preprocess_facts hpre).run
  rw [kzg2_run_new] at h0
  by_contra hne
  obtain ⟨b, hacc⟩ := Option.ne_none_iff_exists'.1 hne
  unfold placeholderVerify at hacc
  obtain ⟨vcom, hv, hacc⟩ := Option.bind_eq_some_iff.1 hacc
  obtain ⟨_, -, hacc⟩ := Option.bind_eq_some_iff.1 hacc
  obtain ⟨_, -, hacc⟩ := Option.bind_eq_some_iff.1 hacc
  obtain ⟨_, -, hacc⟩ := Option.bind_eq_some_iff.1 hacc
  obtain ⟨⟨_, _⟩, -, hacc⟩ := ite_back hacc
  obtain ⟨_, -, hacc⟩ := Option.bind_eq_some_iff.1 hacc
  obtain ⟨⟨_, _⟩, -, hacc⟩ := ite_back2 hacc
  obtain ⟨_, -, hacc⟩ := ite_back hacc
  obtain ⟨⟨_, st4⟩, -, hacc⟩ := Option.bind_eq_some_iff.1 hacc
  obtain ⟨qcom, -, hacc⟩ := Option.bind_eq_some_iff.1 hacc
  dsimp only at hacc
  generalize T.challenge (T.absorb qcom (drawN T.challenge 8 st4).2) = yy at hacc
  by_cases hy : asserts = true ∧ yy.1 ≠ proof.challenge
  · rw [if_pos hy] at hacc
    simp at hacc
  rw [if_neg hy] at hacc
  obtain ⟨sizes, hsizes, hacc⟩ := Option.bind_eq_some_iff.1 hacc
  obtain ⟨points, hpoints, hacc⟩ := Option.bind_eq_some_iff.1 hacc
  obtain ⟨v, hrun, hacc⟩ := Option.bind_eq_some_iff.1 hacc
  obtain ⟨⟨_, _⟩, hver, -⟩ := Option.bind_eq_some_iff.1 hacc
  change (kzg2Comm L P (batchedKzgSetup P dk tk alpha) codec KT).run o0 _ = _ at hrun
  rw [kzg2_run_from KT _ _ o0 h0] at hrun
  change v.verifyEval2On P _ codec KT proof.eval _ _ = _ at hver
  simp only [KzgScheme.verifyEval2On, KzgScheme.verifyEval2, Option.bind_eq_bind, Option.bind_eq_some_iff] at hver
  obtain ⟨_, -, _, ⟨_, -, _, hb, -⟩, -⟩ := hver
  unfold batchesNonempty at hb
  split_ifs at hb with hall
  have hmem : (VARIABLE_BATCH, vcom) ∈ proof.commitments.insert FIXED_BATCH pd.common.fixedCommitment :=
    OMap.find_some_mem (by rw [OMap.find_insert, if_neg (by decide), hv])
  have h1 := List.all_eq_true.1 hall _ hmem
  have hs : (∀ k, LpcOp.commit k ∉ sizes) ∧ LpcOp.batchSize VARIABLE_BATCH 0 ∈ sizes ∧
      ∀ m, LpcOp.batchSize VARIABLE_BATCH m ∈ sizes → m = 0 := by
    unfold sizeOps at hsizes
    obtain ⟨w, hw, hsizes⟩ := Option.bind_eq_some_iff.1 hsizes
    obtain rfl : 0 = w := Option.some_inj.1 (hsize.symm.trans hw)
    obtain ⟨p, hp, hsizes⟩ := ite_back hsizes
    obtain ⟨q, -, hsizes⟩ := Option.bind_eq_some_iff.1 hsizes
    obtain ⟨l, hl, hsizes⟩ := ite_back hsizes
    have hp' : ∀ op ∈ p, ∃ m, op = LpcOp.batchSize PERMUTATION_BATCH m := by
      split_ifs at hp
      · obtain ⟨m, -, hp⟩ := Option.bind_eq_some_iff.1 hp
        rw [Option.some_inj] at hp
        subst hp
        simp
      · rw [Option.some_inj] at hp
        subst hp
        simp
    have hl' : ∀ op ∈ l, ∃ m, op = LpcOp.batchSize LOOKUP_BATCH m := by
      split_ifs at hl
      · obtain ⟨m, -, hl⟩ := Option.bind_eq_some_iff.1 hl
        rw [Option.some_inj] at hl
        subst hl
        simp
      · rw [Option.some_inj] at hl
        subst hl
        simp
    rw [Option.some_inj] at hsizes
    subst hsizes
    refine ⟨fun k hk => ?_, by simp, fun m hm => ?_⟩
    · simp only [List.mem_append, List.mem_singleton, reduceCtorEq, false_or, or_false] at hk
      rcases hk with hk | hk
      · obtain ⟨_, h⟩ := hp' _ hk; cases h
      · obtain ⟨_, h⟩ := hl' _ hk; cases h
    · simp only [List.mem_append, List.mem_singleton, LpcOp.batchSize.injEq, true_and] at hm
      rcases hm with ((rfl | hm) | hm) | hm
      · rfl
      · obtain ⟨_, h⟩ := hp' _ hm; simp [VARIABLE_BATCH, PERMUTATION_BATCH] at h
      · exact absurd hm.1 (by decide)
      · obtain ⟨_, h⟩ := hl' _ hm; simp [VARIABLE_BATCH, LOOKUP_BATCH] at h
  have hpt : ∀ op ∈ points, (∃ k xs, op = .points k xs) ∨ ∃ k i xs, op = .pointsTo k i xs := by
    rw [verifierPoints_eq L n d c _ _ (columnsRotations_spec d c _ (preprocess_facts hpre).rotations).1,
      Option.some_inj] at hpoints
    subst hpoints
    exact pointOps_ops _ _ _ _ _ _ _ _ _
  have hfix : ∀ m, LpcOp.batchSize VARIABLE_BATCH m ∉ fixedOps L n pd.perm t := by simp [fixedOps]
  have inv := container_run _ _ (kzg_inv hrun).run
  have hp := inv.sized VARIABLE_BATCH 0 (by
      rw [committed_container, List.mem_append, List.mem_append, commit_mem_fixedOps]
      rintro (h | h | h)
      · exact absurd h (by decide)
      · exact hs.1 _ h
      · rcases hpt _ h with ⟨_, _, h⟩ | ⟨_, _, _, h⟩ <;> cases h)
    ((batchSize_container L _ _ _).2 (by simp [hs.2.1])) (fun m hm => by
      have hm := (batchSize_container L _ _ _).1 hm
      rw [List.mem_append, List.mem_append] at hm
      rcases hm with h | h | h
      · exact absurd h (hfix m)
      · exact hs.2.2 m h
      · rcases hpt _ h with ⟨_, _, h⟩ | ⟨_, _, _, h⟩ <;> cases h)
  simp [OMap.getD, hp] at h1

/-- **C106**: completeness of placeholder with `kzg_commitment_scheme_v2`. For a table that satisfies the circuit,
every trapdoor, every serialisation of points and every transcript, as long as the prover's key has as many elements
as the table has rows, the verifier's has one besides the generator and no polynomial is asked for twice at one point
(there are two rows, no rotations that come to the same, two usable rows if there are lookups, and the challenge is
not zero): unless a challenge of the arguments is one of few bad ones, the prover produces a proof. If there is a
witness or a public input column the verifier accepts it; if there is none its verdict is undefined. -/
theorem C106_kzg2_complete (hS : PlaceholderSetup L A n fuel d c order t) (hpos : c.maxDegree ≠ 0)
    (hmqc : mqc = 0 ∨ mqc > c.maxDegree) (hdeg : DegreesFit c)
    (hlim : LookupsWithinLimit c mqc) (hcopies : CopiesHold d c.copies t.cellAt)
    (hgates : GatesHold t c.gates d.usableRows) (m : Nat)
    (hlk : c.lookups.gates ≠ [] → LookupsSatisfied t c.lookups d.usableRows m) (delta : F)
    (hn : 1 ≤ n) (hr : RotationsDistinct n d c) (hu : c.lookups.gates ≠ [] → 2 ≤ d.usableRows) :
    ∃ (parts : Nat) (badP : F → Finset F) (badT : Finset F) (badL : F → F → Finset F),
      (∀ beta, (badP beta).card ≤ order.length * 2 ^ n) ∧
      badT.card ≤ (c.lookups.optionCount * d.usableRows) * (c.lookups.optionCount * d.usableRows + 1) * m ∧
      (∀ theta beta, (badL theta beta).card ≤
        (c.lookups.inputCount + c.lookups.optionCount) * d.usableRows) ∧
      ∀ {S H G1 G2 GT : Type} [AddCommGroup G1] [Module F G1] [AddCommGroup G2] [Module F G2]
        [AddCommGroup GT] [Module F GT] [DecidableEq GT] (P : Pairing F G1 G2 GT) (dk tk : Nat) (alpha : F)
        (codec : PointCodec G1) (KT : KzgTranscript S F) (T : PlonkTranscript S F H (List UInt8)) (hash : H)
        (C : CommScheme F S (List UInt8) (G1 × G1) Bool (KzgScheme F)),
        codec.Lawful → 2 ^ n ≤ dk → 1 ≤ tk → C = kzg2Comm L P (batchedKzgSetup P dk tk alpha) codec KT →
        ∃ pd o0, placeholderPreprocess C T L n fuel d c order delta mqc hash t C.new = some (pd, o0) ∧
          (ChallengesAvoid C T n c t d.usableRows parts
            (C.setup o0 (T.key pd.common.hash pd.common.fixedCommitment) pd.common.schemeData) badP badT badL →
          ∃ y, openingChallenge C T L n d c order pd t o0 = some y ∧
            (y ≠ 0 → ∃ proof, placeholderProve C T L n d c order pd t o0 = some proof ∧
              (t.witnesses ≠ [] ∨ t.publicInputs ≠ [] →
                ∀ asserts, placeholderVerify C T L n asserts d c pd.common proof o0 = some true ∧
                ((∀ k < 2 ^ n, y ≠ L.root n ^ k) → ∀ publicInput, PublicInputOf d c n t publicInput →
                  placeholderVerifyPublic C T L n asserts d c pd.common proof o0 publicInput = some true)) ∧
              (t.witnesses = [] ∧ t.publicInputs = [] →
                ∀ asserts, placeholderVerify C T L n asserts d c pd.common proof o0 = none))) := by
  obtain ⟨pre, hperm, hpp⟩ := C65_preprocessor_succeeds hS hpos hmqc delta
  obtain ⟨badP, badT, badL, b1, b2, b3, b4⟩ := prover_bad_sets hS hperm hlim m hlk
  refine ⟨pre.parts, badP, badT, badL, b1, b2, b3, ?_⟩
  intro S H G1 G2 GT _ _ _ _ _ _ _ P dk tk alpha codec KT T hash C hcodec hdk htk hC
  have hdk0 : 0 < dk := lt_of_lt_of_le (by positivity) hdk
  have hrows : 2 ≤ d.rows := by
    rw [hS.rows]
    calc 2 = 2 ^ 1 := rfl
      _ ≤ 2 ^ n := Nat.pow_le_pow_right (by norm_num) hn
  have hH : HasLaws L n (fun f c => f.Has L A c) := hasLaws_lpc A hS.small
  obtain ⟨pd, o0, hpd, hpre⟩ := hpp (kzg2Comm L P (batchedKzgSetup P dk tk alpha) codec KT) T hash
    (kzg2Comm_totalSetup (A := A) hS.lib hdk0 KT) hH hdk
  subst hpd hC
  refine ⟨pd, o0, hpre, fun hav => ?_⟩
  have hp := preprocess_facts hpre
  obtain ⟨hP, hT, hLk⟩ := b4 _ T _ _ hp.indices hav
  obtain ⟨perm, sorted, vl, chunks, pts, y, o, st, coms, hl, hpts, hkinds, hrun, hw, hprove⟩ :=
    prover_reaches_opening (kzg2Comm_total (A := A) hS.lib hdk0 KT) hH hdk hS hp hdeg hlim _ rfl hP hT hLk
  refine ⟨y, ?_, fun hy0 => ?_⟩
  · unfold openingChallenge
    rw [hw]
    rfl
  have hok : ∀ pts, verifierPoints L n d c pd.common y = some pts →
      ∀ k i, KzgPoints dk (challengeCoset L n y) (lpcRequested k i pts) := by
    intro pts hpts k i
    have hnd := requested_nodup hS hp hn hr hu hy0 hpts k i
    have hsub : ∀ x ∈ lpcRequested k i pts, x ∈ challengeCoset L n y := by
      intro x hx
      obtain ⟨r, rfl⟩ := requested_rotation (columnsRotations_spec d c _ hp.rotations).1 hpts k i x hx
      exact mem_challengeCoset hS.lib hS.small hy0 r
    refine ⟨hnd, ?_, hsub⟩
    rw [← List.toFinset_card_of_nodup hnd]
    exact (Finset.card_le_card fun x hx => hsub x (List.mem_toFinset.1 hx)).trans
      ((challengeCoset_card y).trans hdk)
  have hsess := honest_session hS.lib hS.small hH hdk hl hkinds (fun k i _ => hok pts hpts k i)
  have hpre0 := hp.run
  rw [kzg2_run_new] at hpre0
  have hrun' := hrun
  change (kzg2Comm L P (batchedKzgSetup P dk tk alpha) codec KT).run o0 _ = _ at hrun'
  rw [kzg2_run_from KT _ _ o0 hpre0] at hrun'
  obtain ⟨e, ms, ev, h1, h2, h3, hz, -⟩ :=
    kzg2_session_proof hS.lib hcodec KT le_rfl hdk0 htk hsess o0 o st hpre0 hrun'
  have hreal : placeholderProve (kzg2Comm L P (batchedKzgSetup P dk tk alpha) codec KT) T L n d c order pd t o0 =
      some ⟨coms, y, e⟩ := by
    rw [hprove]
    show ((o.proofEval2On _ codec KT st).map _) = _
    simp only [KzgScheme.proofEval2On, h1, h2, h3, Option.bind_eq_bind, Option.bind_some, Option.map_some]
  refine ⟨_, hreal, fun hcols asserts => ?_, fun hno asserts => ?_⟩
  rotate_left
  · refine C106_empty_variable_batch rfl hpre _ ?_ asserts
    have := hz VARIABLE_BATCH (List.mem_append_right _ (by rw [commit_mem_honestOps]; exact .inl rfl))
    show (e.1.find VARIABLE_BATCH).map List.length = _
    rw [this]
    simp [honestPolys, VARIABLE_BATCH, hno.1, hno.2]
  -- the object from which the prover opens
  have hfill : filled o = true := by
    have hw' := hw _ (fun o st => some ((([] : EvalStorage F), o), st))
    obtain ⟨D, R⟩ := prove_run (C := (kzg2Comm L P (batchedKzgSetup P dk tk alpha) codec KT).withOpening
      (fun o st => some ((([] : EvalStorage F), o), st)))
      ⟨(kzgComm_rootLaws (L := L) (P := P) (codec := codec) KT (batchedKzgSetup P dk tk alpha)).apply,
        (kzgComm_rootLaws (L := L) (P := P) (codec := codec) KT (batchedKzgSetup P dk tk alpha)).setup⟩ hw'
    have he := R.eval
    change some ((([] : EvalStorage F), D.obj), _) = some (([], o), _) at he
    simp only [Option.some.injEq, Prod.mk.injEq, true_and] at he
    rw [← he.1]
    exact honest_filled hrows hcols hp R
  have hfilled : placeholderProve (kzg2Filled L P (batchedKzgSetup P dk tk alpha) codec KT) T L n d c order pd t o0 =
      some ⟨coms, y, e⟩ := by
    have := hw _ (fun s st => s.proofEval2Filled (batchedKzgSetup P dk tk alpha).ck codec KT st)
    simp only [KzgScheme.proofEval2Filled, h1, h2, h3, hfill, if_true, Option.bind_eq_bind, Option.bind_some,
      Option.map_some] at this
    exact this
  have hsort : ∀ vcom theta, _ → theta = lookupTheta T c pd.perm.parts vcom _ → c.lookups.gates ≠ [] →
      Sortable (compressedInputs t c.lookups n theta)
        (compressedValues t c.lookups n d.usableRows theta) (2 ^ n) d.usableRows :=
    fun vcom theta hv htheta hne => by
      rw [htheta]
      exact hT hne vcom (prove_variable_commitment hreal vcom hv)
  have hCo := kzg2Filled_complete (P := P) (d := dk) (t := tk) (alpha := alpha) hS.lib hcodec KT
    (U := challengeCoset L n y) hdk0 htk
  have hR := kzg2Filled_rootLaws (L := L) (P := P) (codec := codec) KT (batchedKzgSetup P dk tk alpha)
  exact ⟨C37_honest_accepted hCo hR hH hdk hS hpre hfilled trivial hok hsort hcopies hgates asserts,
    fun hy publicInput hpi => C38_honest_accepted hCo hR hH hdk hS hpre hfilled trivial hok hsort hcopies hgates
      hpi.sizes publicInput hpi.fits hpi.given hy asserts⟩

/-- **C106**, finding: when a proof was accepted, the transcript of the prover is that of the verifier with one more
message, the second element of the proof; whatever they draw afterwards, they do not draw it from the same state. The
verifier's transcript has absorbed the commitments, points and values, drawn a challenge, absorbed the first element of
the proof and drawn another challenge. -/
theorem C106_transcripts_differ {S G1 G2 GT : Type} [AddCommGroup G1] [Module F G1] [AddCommGroup G2]
    [Module F G2] [AddCommGroup GT] [Module F GT] [DecidableEq GT] {P : Pairing F G1 G2 GT} {dk tk : Nat} {alpha : F}
    {codec : PointCodec G1} (hL : L.Lawful A) (hcodec : codec.Lawful) (KT : KzgTranscript S F) {U : Finset F}
    (hd : 0 < dk) (ht : 0 < tk) {pre hp szs pts : List (LpcOp F)} {Q : Nat → List (List F)}
    (sess : SchemeSession (fun f c => f.Has L A c) dk (KzgPoints dk U) pre hp szs pts Q)
    (o0 sp : KzgScheme F) (st : S)
    (hpre : runKzg L (batchedKzgSetup P dk tk alpha).ck codec pre = some o0)
    (hsp : runKzg L (batchedKzgSetup P dk tk alpha).ck codec (pre ++ (hp ++ pts)) = some sp)
    (hne : ∀ k, LpcOp.commit k ∈ pre ++ hp → Q k ≠ []) :
    ∃ proof v st', sp.proofEval2On (batchedKzgSetup P dk tk alpha).ck codec KT st =
        some (proof, KT.absorb (.bytes (codec.enc proof.2.2)) st') ∧
      runKzg L (batchedKzgSetup P dk tk alpha).ck codec (pre ++ (szs ++ pts)) = some v ∧
      v.verifyEval2On P (batchedKzgSetup P dk tk alpha) codec KT proof sp.commitments st = some (true, st') ∧
      ∃ ev ms, sp.ev.evalPolys = some ev ∧ kzgTranscriptAll ev sp.commitments = some ms ∧
        st' = (KT.challenge (KT.absorb (.bytes (codec.enc proof.2.1))
          (KT.challenge (ms.foldl (fun st m => KT.absorb m st) st)).2)).2 := by
  have inv := kzg_inv hsp
  have hfill : filled sp = true := by
    refine List.all_eq_true.2 fun e he => ?_
    have hk : LpcOp.commit e.1 ∈ pre ++ hp := by
      by_contra hno
      have := inv.absent e.1 (by
        rw [committed_container, ← List.append_assoc, List.mem_append]
        simp only [(sess.ptsNoCommit e.1).1, or_false]; exact hno)
      have hf := inv.sorted.find_mem he
      rw [this] at hf
      simp at hf
    have h1 : (lpcAppended e.1 (pre ++ (hp ++ pts))).length = (Q e.1).length := by
      rw [← List.append_assoc, lpcAppended_append e.1 (pre ++ hp), (sess.appendedPts e.1).1, List.append_nil,
        (sess.polys e.1).length_eq]
    have h2 := List.length_pos_of_ne_nil (hne e.1 hk)
    rw [(container_run _ _ inv.run).polys e.1, appended_container, List.length_map, h1]
    simpa using hne e.1 hk
  obtain ⟨proof, ms, ev, h1, h2, h3, -, v, hv, hver⟩ :=
    kzg2_session_proof hL hcodec KT le_rfl hd ht sess o0 sp st hpre hsp
  refine ⟨proof, v, _, ?_, hv, hver hfill, ev, ms, h1, h2, rfl⟩
  simp only [KzgScheme.proofEval2On, h1, h2, h3, Option.bind_eq_bind, Option.bind_some]

end complete

/-! ### runs -/

/-- **C106**, a run from the preprocessing to the verdict, for every trapdoor and every way in which the transcript
of the scheme draws challenges; the verifier's key has one element besides the generator. -/
theorem C106_example (alpha : ZMod 257) (KT : KzgTranscript Nat (ZMod 257)) :
    ∃ (T : PlonkTranscript Nat (ZMod 257) Unit (List UInt8)) (C : CommScheme (ZMod 257) Nat _ _ _ _),
    C = kzg2Comm (FftLib.ofRoots exRoots257) exPairing257 (batchedKzgSetup exPairing257 4 1 alpha) exCodec257 KT ∧
    ∃ pd o0 proof,
      placeholderPreprocess C T (FftLib.ofRoots exRoots257) 2 (2 ^ 64) exPlonkDesc exPlonkCircuit
        exPlonkOrder 3 4 () exPlonkTable C.new = some (pd, o0) ∧
      placeholderProve C T (FftLib.ofRoots exRoots257) 2 exPlonkDesc exPlonkCircuit exPlonkOrder pd
        exPlonkTable o0 = some proof ∧
      placeholderVerifyPublic C T (FftLib.ofRoots exRoots257) 2 true exPlonkDesc exPlonkCircuit pd.common
        proof o0 [[16]] = some true := by
  obtain ⟨parts, badP, badT, badL, b1, b2, b3, h⟩ := C106_kzg2_complete (mqc := 4) exPlonkSetup
    (by decide +kernel) (by decide +kernel) exPlonkDegrees exPlonkLimit exPlonkCopies exPlonkGates 2
    (fun _ => exPlonkLookups) 3 (by norm_num) exPlonkRotations (fun _ => by decide)
  have hc : Fintype.card (ZMod 257) = 257 := ZMod.card 257
  have hX : exPlonkAvoid.card = 5 := by decide +kernel
  obtain ⟨T, t1, t2, t3⟩ := C65_challenges_exist 2 exPlonkCircuit exPlonkTable 3 parts badP badT badL
    exPlonkAvoid
    (fun b => by
      have h1 : (badP b).card ≤ 12 := b1 b
      rw [hX, hc]; omega)
    (by
      have h1 : badT.card ≤ 24 := b2
      rw [hX, hc]; omega)
    (fun th b => by
      have h1 : (badL th b).card ≤ 6 := b3 th b
      rw [hX, hc]; omega)
    (by rw [hX, hc]; norm_num) 0 Unit (List UInt8)
  obtain ⟨pd, o0, hpre, h⟩ := h exPairing257 4 1 alpha exCodec257 KT T () _ exCodec257_lawful (by norm_num)
    (by norm_num) rfl
  obtain ⟨y, hy, h⟩ := h (t3 _ _ (by rw [t2]; rfl))
  obtain ⟨st, rfl⟩ := openingChallenge_drawn hy
  have hst : (T.challenge st).1 ≠ 0 ∧ (T.challenge st).1 ^ 4 ≠ 1 := by
    have := t1 st
    simp only [exPlonkAvoid, Finset.mem_filter, Finset.mem_univ, true_and, not_or] at this
    exact this
  obtain ⟨proof, hp, hv, -⟩ := h hst.1
  refine ⟨T, _, rfl, pd, o0, proof, hpre, hp,
    (hv (.inl (by decide)) true).2 (fun k _ hk => hst.2 ?_) _ exPlonkPublic⟩
  rw [hk, ← pow_mul, mul_comm, pow_mul]
  have : (FftLib.ofRoots exRoots257).root 2 ^ 4 = 1 := by decide
  rw [this, one_pow]

/-- a table with one constant column and one selector -/
def exConstDesc : TableDesc := ⟨0, 0, 1, 1, 3, 4⟩

def exConstTable : PlonkTable (ZMod 257) := ⟨[], [], [[5, 5, 0, 0]], [[1, 1, 0, 0]]⟩

/-- the constant is five where the selector is set -/
def exConstCircuit : Circuit (ZMod 257) where
  gates := [⟨0, [.bin .sub (.term ⟨[⟨0, 0, true, .constant⟩], 1⟩) (.term ⟨[], 5⟩)]⟩]
  copies := []
  lookups := ⟨[], []⟩
  publicInputSizes := []

theorem exConstSetup : PlaceholderSetup (FftLib.ofRoots exRoots257) 4 2 (2 ^ 64) exConstDesc exConstCircuit
    [] exConstTable where
  lib := exLib257_lawful
  small := by norm_num
  rows := rfl
  usable := by decide
  used := by decide
  width := by decide
  rows32 := by norm_num
  fits := ⟨rfl, rfl, rfl, rfl, by unfold PlonkTable.Rectangular; decide, by decide⟩
  copies := by
    intro c hc
    simp [exConstCircuit] at hc
  nodup := by decide
  members := by
    intro v
    simp [permutedVars, exConstCircuit]
  gates := by
    intro g hg
    simp only [exConstCircuit, List.mem_singleton] at hg
    subst hg
    refine ⟨by decide, ?_⟩
    intro c hc v hv
    simp only [List.mem_singleton] at hc
    subst hc
    simp only [Expr.visitVars, List.mem_append, List.mem_singleton, List.not_mem_nil, or_false] at hv
    subst hv
    exact ⟨_, rfl, by decide⟩
  lookups := ⟨fun g hg => by simp [exConstCircuit] at hg, fun g hg => by simp [exConstCircuit] at hg⟩
  degree := by
    have : exConstCircuit.maxDegree = 1 := by decide +kernel
    rw [this]; norm_num
  fuel := le_rfl

/-- **C106**, finding, a run: a circuit on a constant column only, whose honest proofs make the verifier divide by
zero. -/
theorem C106_no_columns_example (alpha : ZMod 257) (KT : KzgTranscript Nat (ZMod 257)) :
    ∃ (T : PlonkTranscript Nat (ZMod 257) Unit (List UInt8)) (C : CommScheme (ZMod 257) Nat _ _ _ _),
    C = kzg2Comm (FftLib.ofRoots exRoots257) exPairing257 (batchedKzgSetup exPairing257 4 1 alpha) exCodec257 KT ∧
    ∃ pd o0 proof,
      placeholderPreprocess C T (FftLib.ofRoots exRoots257) 2 (2 ^ 64) exConstDesc exConstCircuit
        [] 3 0 () exConstTable C.new = some (pd, o0) ∧
      placeholderProve C T (FftLib.ofRoots exRoots257) 2 exConstDesc exConstCircuit [] pd
        exConstTable o0 = some proof ∧
      placeholderVerify C T (FftLib.ofRoots exRoots257) 2 true exConstDesc exConstCircuit pd.common
        proof o0 = none := by
  obtain ⟨parts, badP, badT, badL, b1, b2, b3, h⟩ := C106_kzg2_complete (mqc := 0) exConstSetup
    (by decide +kernel) (.inl rfl)
    ⟨by
      intro g hg e he
      simp only [exConstCircuit, List.mem_singleton] at hg
      subst hg
      simp only [List.mem_singleton] at he
      subst he
      decide, by simp [exConstCircuit], by decide⟩ (.inl rfl)
    (fun c hc => by simp [exConstCircuit] at hc)
    (by
      intro j hj g hg hs c hc
      simp only [exConstCircuit, List.mem_singleton] at hg
      subst hg
      simp only [List.mem_singleton] at hc
      subst hc
      have hj : j < 3 := hj
      interval_cases j
      · decide +kernel
      · decide +kernel
      · exact absurd rfl hs) 0
    (fun h => absurd rfl h) 3 (by norm_num)
    (by
      have h : ∀ i r, (r = 0 ∨ VarUsed exConstDesc exConstCircuit i r ∨
          LookupTableUsed exConstDesc exConstCircuit i r) → r = 0 := by
        rintro i r (h | ⟨v, hv, -, rfl⟩ | ⟨h, -⟩)
        · exact h
        · revert v
          decide +kernel
        · exact absurd rfl h
      intro i r r' h1 h2 _
      rw [h i r h1, h i r' h2])
    (fun h => absurd rfl h)
  have hc : Fintype.card (ZMod 257) = 257 := ZMod.card 257
  have hX : exPlonkAvoid.card = 5 := by decide +kernel
  obtain ⟨T, t1, t2, t3⟩ := C65_challenges_exist 2 exConstCircuit exConstTable 3 parts badP badT badL
    exPlonkAvoid
    (fun b => by
      have h1 : (badP b).card ≤ 0 := b1 b
      rw [hX, hc]; omega)
    (by
      have h1 : badT.card ≤ 0 := b2
      rw [hX, hc]; omega)
    (fun th b => by
      have h1 : (badL th b).card ≤ 0 := b3 th b
      rw [hX, hc]; omega)
    (by rw [hX, hc]; norm_num) 0 Unit (List UInt8)
  obtain ⟨pd, o0, hpre, h⟩ := h exPairing257 4 1 alpha exCodec257 KT T () _ exCodec257_lawful (by norm_num)
    (by norm_num) rfl
  obtain ⟨y, hy, h⟩ := h (t3 _ _ (by rw [t2]; rfl))
  obtain ⟨st, rfl⟩ := openingChallenge_drawn hy
  have hst : (T.challenge st).1 ≠ 0 := by
    have := t1 st
    simp only [exPlonkAvoid, Finset.mem_filter, Finset.mem_univ, true_and, not_or] at this
    exact this.1
  obtain ⟨proof, hp, -, hv⟩ := h hst
  exact ⟨T, _, rfl, pd, o0, proof, hpre, hp, hv ⟨rfl, rfl⟩ true⟩

end Crypto3Zk
