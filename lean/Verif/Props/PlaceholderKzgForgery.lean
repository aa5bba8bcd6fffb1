import Verif.Lemmas.PlaceholderKzgForgery
import Verif.Props.PlaceholderKzg
import Verif.Props.PlaceholderPublic

/-!
# C102: placeholder with KZG accepts proofs for circuits that cannot be satisfied

The verifier computes the positions of the constants and selectors among the fixed values from how many fixed
values the proof has (verifier.hpp:210, 294, 307), and `kzg_commitment_scheme::verify_eval` checks only as many of
them as there are fixed polynomials (kzg.hpp:837). With zeros after the fixed values the verifier takes all
constants and selectors to be zero.
-/

set_option linter.unusedSectionVars false

namespace Crypto3Zk

open Polynomial

variable {F : Type} [Field F] [LinearOrder F] {L : FftLib F} {A n fuel : Nat} {d : TableDesc} {c : Circuit F}
  {order : List PlonkVar} {t : PlonkTable F} {delta : F} {mqc : Nat}

/-- A proof with zeros after the fixed values, if the verifier of the scheme accepts what a prover opens that knows of
the zeros. -/
theorem padded_forgery (hS : PlaceholderSetup L A n fuel d c order t) (hcop : c.copies = [])
    (hlk : c.lookups.gates = []) {S H Com Pr Data Obj : Type} {T : PlonkTranscript S F H Com} {hash : H}
    {C : CommScheme F S Com Pr Data Obj} {pd : PublicData F H Com Data} {o0 : Obj}
    (hpre : placeholderPreprocess C T L n fuel d c order delta mqc hash t C.new = some (pd, o0))
    (pe : Obj → S → Option ((EvalStorage F × Pr) × S))
    (ve : Obj → EvalStorage F × Pr → OMap Com → S → Option (Bool × S))
    {C' : CommScheme F S Com Pr Data Obj} (hC' : C' = { C with proofEval := pe, verifyEval := ve })
    {maxLen : Nat} {okPoints : F → List F → Prop} (hT : C'.Total (fun f c => f.Has L A c) maxLen)
    (hO : ∀ y, C'.Opens (fun f c => f.Has L A c) maxLen (okPoints y) fun _ => True)
    (hCo : ∀ y, C'.Complete (fun f c => f.Has L A c) maxLen (okPoints y) fun _ => True)
    (hR : C'.RootLaws) (hmax : 2 ^ n ≤ maxLen)
    (hok : ∀ y ≠ 0, ∀ pts, verifierPoints L n d c pd.common y = some pts →
      ∀ k i, okPoints y (lpcRequested k i pts))
    (hve : ∀ vcom qcom y pts v e st st', verifierPoints L n d c pd.common y = some pts →
      C.run (C.setup o0 (T.key pd.common.hash pd.common.fixedCommitment) pd.common.schemeData).2
        (honestSizes c (honestPolys L pd.perm t [] [] [] [[0]]) ++ pts) = some v →
      ve v e ((proofCommitments vcom none none qcom).insert FIXED_BATCH pd.common.fixedCommitment) st =
        some (true, st') →
      C.verifyEval v (padStorage FIXED_BATCH (zeroValues d (pd.common.rotations.map List.length).sum) e.1, e.2)
        ((proofCommitments vcom none none qcom).insert FIXED_BATCH pd.common.fixedCommitment) st =
        some (true, st')) :
    ∃ st : S, (T.challenge st).1 ≠ 0 → ∃ proof, proof.challenge = (T.challenge st).1 ∧
      VariableOpened L n d c pd.common t proof ∧
      ∀ asserts, placeholderVerify C T L n asserts d c pd.common proof o0 = some true ∧
        ((∀ k < 2 ^ n, proof.challenge ≠ L.root n ^ k) → ∀ publicInput, PublicInputOf d c n t publicInput →
          placeholderVerifyPublic C T L n asserts d c pd.common proof o0 publicInput = some true) := by
  have hL := hS.lib
  have hp := preprocess_facts hpre
  have hparts : pd.perm.parts = 0 := by
    obtain ⟨-, -, -, -, -, -, -, -, -, -, -, -, s13⟩ := permPreprocess_shape hL hS.small hp.perm
    rw [order_nil hS hcop] at s13
    simpa [permutationParts] using s13.symm
  set rots := pd.common.rotations with hrots
  set pad := padStorage FIXED_BATCH (zeroValues (F := F) d (rots.map List.length).sum) with hpad
  have hp' : PreFacts C' T L n fuel d c order delta mqc hash t C'.new pd o0 := by
    subst hC'
    exact
    ⟨hp.perm, hp.indices, hp.run, hp.root, hp.rotations, hp.data, hp.desc, hp.degree, hp.parts, hp.lookupParts,
      hp.hashEq, hp.mqcEq, hp.lagrange0, hp.Z, hp.limit, hp.degree_pos⟩
  let s0 := C.setup o0 (T.key pd.common.hash pd.common.fixedCommitment) pd.common.schemeData
  let st0 := s0.1
  let Pst : ProverStrategy F Com := ⟨fun _ => [], fun _ => [], fun _ _ => [], fun _ _ _ => [[0]]⟩
  have hP : Pst.Fits n c pd.perm.parts :=
    { permLen := by intro v p h; simp [Pst] at h
      sortedLen := by intro v p h; simp [Pst] at h
      vlLen := by intro v l p h; simp [Pst] at h
      chunksLen := by
        intro v l p x h
        simp only [Pst, List.mem_singleton] at h
        rw [h]
        exact Nat.one_le_two_pow
      copies := by intro v; simp [Pst, hcop]
      parts := by intro v; simp [Pst, hparts]
      lookups := by intro v l; simp [Pst, hlk]
      noLookups := by intro v h; rfl }
  let stg := fun v : Com => T.absorb v st0
  obtain ⟨vcom, lcom, pcom, qcom, -, -, hln, hpn, hmain⟩ := any_prover_committed (C := C')
    (okPoints := okPoints) hT hO hCo
    hR (hasLaws_lpc A hS.small) hmax hS hp' trivial Pst hP
    (fun v _ _ q => T.challenge (T.absorb q (drawN T.challenge 8 (T.challenge (stg v)).2).2))
  obtain rfl := hln hlk
  obtain rfl := hpn hcop hlk
  refine ⟨T.absorb qcom (drawN T.challenge 8 (T.challenge (stg vcom)).2).2, fun hy0 => ?_⟩
  obtain ⟨e, hz, pts, w, st', hpts, hw, hver⟩ := hmain fun k i pts hpts => hok _ hy0 pts hpts k i
  set y := T.challenge (T.absorb qcom (drawN T.challenge 8 (T.challenge (stg vcom)).2).2) with hy
  obtain ⟨c1, -, -, c4, -, -⟩ := find_proofCommitments vcom none none qcom
  obtain ⟨k, hm1, hm2⟩ := padded_permSize hz (rots.map List.length).sum
  obtain ⟨ev, hev1, hev2⟩ := padded_columnsAtY hz
  obtain ⟨hq1, hq2⟩ := hz.quotient
  have hq1' : (pad e.1).batchSize QUOTIENT_BATCH = some 1 := by
    rw [EvalStorage.batchSize] at hq1 ⊢
    rw [hpad, find_padStorage, if_neg (by decide)]
    exact hq1
  have hq2' : (List.range 1).mapM (fun i => (pad e.1).get QUOTIENT_BATCH i 0) =
      some ([[0]].map (evalPoly · y.1)) :=
    mapM_mono _ _ (fun i v h => get_padStorage _ _ _ _ _ _ _ h) _ _ hq2
  have hsz : sizeOps (pad e.1) c = some (honestSizes c (honestPolys L pd.perm t (Pst.perm vcom) (Pst.sorted vcom)
      (Pst.vl vcom none) (Pst.chunks vcom none none))) := by
    rw [← hz.sizes]
    unfold sizeOps EvalStorage.batchSize
    simp only [hpad, find_padStorage, show VARIABLE_BATCH ≠ FIXED_BATCH by decide,
      show QUOTIENT_BATCH ≠ FIXED_BATCH by decide, show PERMUTATION_BATCH ≠ FIXED_BATCH by decide,
      show LOOKUP_BATCH ≠ FIXED_BATCH by decide, if_false]
  have hw' : C.run s0.2 (honestSizes c (honestPolys L pd.perm t (Pst.perm vcom) (Pst.sorted vcom)
      (Pst.vl vcom none) (Pst.chunks vcom none none)) ++ pts) = some w := by subst hC'; exact hw
  have hver' := hve vcom qcom _ pts w e _ st' hpts hw' (by subst hC'; exact hver)
  have hacc : ∀ asserts, placeholderVerify C T L n asserts d c
      pd.common ⟨proofCommitments vcom none none qcom, y.1, (pad e.1, e.2)⟩ o0 = some true := by
    intro asserts
    have eperm : (if c.copies.length > 0 then do
        let claims ← readPermClaims (pad e.1) d pd.common
          (pd.common.permutedColumns.length + (d.constant + d.selector))
          (evalPoly pd.perm.qLast y.1) (evalPoly pd.perm.qBlind y.1)
        permVerify T.challenge pd.perm.lagrange0 pd.common.mqc pd.common.permutationParts claims y.1 (stg vcom)
      else some ((0, 0, 0), stg vcom)) = some ((0, 0, 0), stg vcom) := if_neg (by simp [hcop])
    have elook : (if c.lookups.gates.length > 0 then do
        let claims ← readLookupClaims (pad e.1) pd.common (evalPoly pd.perm.lagrange0 y.1)
          (evalPoly pd.perm.qLast y.1) (evalPoly pd.perm.qBlind y.1)
        let lcom ← (proofCommitments vcom none none qcom).find LOOKUP_BATCH
        lookupVerify T.challenge T.absorb lcom c.lookups pd.common.mqc ev claims (stg vcom)
      else some ((0, 0, 0, 0), stg vcom)) = some ((0, 0, 0, 0), stg vcom) := if_neg (by simp [hlk])
    have epc : (if c.copies.length > 0 ∨ c.lookups.gates.length > 0 then do
        let pcom ← (proofCommitments vcom none none qcom).find PERMUTATION_BATCH
        some (T.absorb pcom (stg vcom))
      else some (stg vcom)) = some (stg vcom) := if_neg (by simp [hcop, hlk])
    unfold placeholderVerify
    refine bind_step c1 ?_
    refine bind_step (get_padStorage _ _ _ _ _ _ _ hz.qLast.1) ?_
    refine bind_step (get_padStorage _ _ _ _ _ _ _ hz.qBlind.1) ?_
    refine bind_step hm1 ?_
    rw [hm2, hp.lagrange0]
    refine ite_step eperm ?_
    refine bind_step hev1 ?_
    refine ite_step2 elook ?_
    refine ite_step epc ?_
    refine bind_step (blanked_gates hS hp hev2 T.challenge _ _) ?_
    refine bind_step c4 ?_
    refine (if_neg (by simp [hy, stg, st0, s0])).trans ?_
    refine bind_step hsz ?_
    refine bind_step hpts ?_
    refine bind_step hw' ?_
    refine bind_step hver' ?_
    refine (if_pos rfl).trans ?_
    refine bind_step hq1' ?_
    refine bind_step hq2' ?_
    show some (decide _) = some true
    rw [Option.some_inj, decide_eq_true_iff, foldl_zeros _ (by simp)]
    simp [consolidateQuotient, evalPoly]
  have hopen : VariableOpened L n d c pd.common t
      ⟨proofCommitments vcom none none qcom, y.1, (pad e.1, e.2)⟩ := by
    intro pts' hpts'
    have hrl := (columnsRotations_spec d c _ hp.rotations).1
    rw [verifierPoints_eq L n d c pd.common _ hrl, hp.parts, hp.desc, Option.some_inj] at hpts'
    have hf := hz.find VARIABLE_BATCH (Or.inr (Or.inl rfl))
    have hf' : OMap.find (pad e.1) VARIABLE_BATCH = OMap.find e.1 VARIABLE_BATCH := by
      rw [hpad, find_padStorage, if_neg (by decide)]
    refine hf'.trans (hf.trans ?_)
    rw [← hpts', Option.some_inj]
    simp only [VARIABLE_BATCH, honestPolys]
    rw [← List.map_append]
    apply List.ext_getElem (by simp)
    intro i h1 h2
    simp only [List.getElem_mapIdx, List.getElem_map]
    refine List.map_congr_left fun x _ => ?_
    rw [dfsPoly, eval_toPoly]
  refine ⟨_, rfl, hopen, fun asserts => ⟨hacc asserts, fun hrow publicInput hpi => ?_⟩⟩
  rw [C38_verdict hL hS.small hS.rows asserts publicInput fun i xs hi => (hpi.fits i xs hi).2]
  refine ⟨hpi.sizes, hacc asserts, ?_⟩
  intro i xs hi
  obtain ⟨col, r, hcol, hrr, hrot⟩ := hpi.given i xs hi
  have hlen : col.length = 2 ^ n := hS.fits.rect.2.1 col (List.mem_of_getElem? hcol)
  refine ⟨(hpi.fits i xs hi).1, fun k hk => hrow k (hk.trans_le (hpi.fits i xs hi).2), ?_⟩
  rw [first_claim hpre hS.fits.witness hS.fits.publicInput hcol hrr hopen, hrot,
    dfsPoly_rotate hL hS.small r col hlen]

/-- **C102**, finding: for every circuit without copy constraints and lookups, whatever its gates are, every table
(also one that violates the gates), every key, every serialisation of points and every transcript, there is a proof
that the verifier accepts, unless the last challenge is zero. It is accepted with assertions, and with the public
inputs of the table. -/
theorem C102_kzg_forgery (hS : PlaceholderSetup L A n fuel d c order t) (hcop : c.copies = [])
    (hlk : c.lookups.gates = []) (hn : 1 ≤ n) (hr : RotationsDistinct n d c)
    {S H G1 G2 GT : Type} [AddCommGroup G1] [Module F G1] [AddCommGroup G2] [Module F G2]
    [AddCommGroup GT] [Module F GT] [DecidableEq GT] (P : Pairing F G1 G2 GT) (dk tk : Nat) (alpha : F)
    (codec : PointCodec G1) (hcodec : codec.Lawful) (hdk : 2 ^ n ≤ dk) (htk : 2 ^ n ≤ tk) (KT : KzgTranscript S F)
    (T : PlonkTranscript S F H (List UInt8)) (hash : H) (C : CommScheme F S (List UInt8) G1 Bool (KzgScheme F))
    (hC : C = kzgComm L P (batchedKzgSetup P dk tk alpha) codec KT)
    (pd : PublicData F H (List UInt8) Bool) (o0 : KzgScheme F)
    (hpre : placeholderPreprocess C T L n fuel d c order delta mqc hash t C.new = some (pd, o0)) :
    ∃ st : S, (T.challenge st).1 ≠ 0 → ∃ proof, proof.challenge = (T.challenge st).1 ∧
      VariableOpened L n d c pd.common t proof ∧
      ∀ asserts, placeholderVerify C T L n asserts d c pd.common proof o0 = some true ∧
        ((∀ k < 2 ^ n, proof.challenge ≠ L.root n ^ k) → ∀ publicInput, PublicInputOf d c n t publicInput →
          placeholderVerifyPublic C T L n asserts d c pd.common proof o0 publicInput = some true) := by
  subst hC
  have hL := hS.lib
  have hp := preprocess_facts hpre
  have hdk0 : 0 < dk := lt_of_lt_of_le (by positivity) hdk
  have hR0 := kzgComm_rootLaws (L := L) (P := P) (codec := codec) KT (batchedKzgSetup P dk tk alpha)
  refine padded_forgery (okPoints := fun y xs => KzgPoints dk (challengeCoset L n y) xs) hS hcop hlk hpre _ _
    (C' := paddedComm L P (batchedKzgSetup P dk tk alpha) codec KT FIXED_BATCH
      (zeroValues (F := F) d (pd.common.rotations.map List.length).sum)) rfl
    (kzgComm_total (P := P) (t := tk) (alpha := alpha) (codec := codec) hL hdk0 KT)
    (fun y => paddedComm_opens hL hcodec KT FIXED_BATCH _ ((challengeCoset_card y).trans htk) hdk0)
    (fun y => paddedComm_complete hL hcodec KT FIXED_BATCH _ ((challengeCoset_card y).trans htk) hdk0)
    ⟨hR0.apply, hR0.setup⟩ hdk ?_ (fun _ _ _ _ _ _ _ _ _ _ h => h)
  intro y hy0 pts hpts k i
  have hnd := requested_nodup hS hp hn hr (fun h => absurd hlk h) hy0 hpts k i
  have hsub : ∀ x ∈ lpcRequested k i pts, x ∈ challengeCoset L n y := by
    intro x hx
    obtain ⟨r, rfl⟩ := requested_rotation (columnsRotations_spec d c _ hp.rotations).1 hpts k i x hx
    exact mem_challengeCoset hL hS.small hy0 r
  refine ⟨hnd, ?_, hsub⟩
  rw [← List.toFinset_card_of_nodup hnd]
  exact (Finset.card_le_card fun x hx => hsub x (List.mem_toFinset.1 hx)).trans ((challengeCoset_card _).trans hdk)

/-! ### an example -/

/-- a witness column, a public input column and a selector; four rows, of which three are usable -/
def exSquareDesc : TableDesc := ⟨1, 1, 0, 1, 3, 4⟩

/-- The public input is the square of the witness, in rows where the selector is not zero. -/
def exSquareCircuit : Circuit (ZMod 257) where
  gates := [⟨0, [.bin .sub (.pow (.term ⟨[⟨0, 0, true, .witness⟩], 1⟩) 2)
    (.term ⟨[⟨0, 0, true, .publicInput⟩], 1⟩)]⟩]
  copies := []
  lookups := ⟨[], []⟩
  publicInputSizes := [1]

/-- the public input `3`, which is not a square modulo 257, and the witness `1` -/
def exSquareTable : PlonkTable (ZMod 257) := ⟨[[1, 0, 0, 0]], [[3, 0, 0, 0]], [], [[1, 0, 0, 0]]⟩

theorem exSquareSetup : PlaceholderSetup (FftLib.ofRoots exRoots257) 4 2 (2 ^ 64) exSquareDesc exSquareCircuit
    [] exSquareTable where
  lib := exLib257_lawful
  small := by norm_num
  rows := rfl
  usable := by decide
  used := by decide
  width := by decide
  rows32 := by norm_num
  fits := ⟨rfl, rfl, rfl, rfl, by unfold PlonkTable.Rectangular; decide, by decide⟩
  copies := by
    intro c hc v hv
    simp [exSquareCircuit] at hc
  nodup := by decide
  members := by
    intro v
    simp [permutedVars, exSquareCircuit]
  gates := by
    intro g hg
    simp only [exSquareCircuit, List.mem_singleton] at hg
    subst hg
    refine ⟨by decide, ?_⟩
    intro c hc v hv
    simp only [List.mem_singleton] at hc
    subst hc
    simp only [Expr.visitVars, List.mem_append, List.mem_singleton] at hv
    rcases hv with rfl | rfl <;> exact ⟨_, rfl, by decide⟩
  lookups := by
    refine ⟨fun g hg => ?_, fun tab htab => ?_⟩
    · simp [exSquareCircuit] at hg
    · simp [exSquareCircuit] at htab
  degree := by
    have : exSquareCircuit.maxDegree = 2 := by decide +kernel
    rw [this]
    norm_num
  fuel := le_rfl

theorem exSquareUsed (i : Nat) (r : Int) (h : VarUsed exSquareDesc exSquareCircuit i r) : r = 0 := by
  obtain ⟨v, hv, -, rfl⟩ := h
  revert v
  decide +kernel

theorem exSquareRotations : RotationsDistinct 2 exSquareDesc exSquareCircuit := by
  have h : ∀ i r, (r = 0 ∨ VarUsed exSquareDesc exSquareCircuit i r ∨
      LookupTableUsed exSquareDesc exSquareCircuit i r) → r = 0 := by
    rintro i r (h | h | ⟨h, -⟩)
    · exact h
    · exact exSquareUsed i r h
    · exact absurd rfl h
  intro i r r' h1 h2 _
  rw [h i r h1, h i r' h2]

theorem exSquarePublic : PublicInputOf exSquareDesc exSquareCircuit 2 exSquareTable [[3]] where
  sizes := .inr rfl
  fits := by
    intro i xs h
    obtain rfl : i = 0 := by
      have := (List.getElem?_eq_some_iff.1 h).1
      simpa using this
    simp only [List.getElem?_cons_zero, Option.some.injEq] at h
    subst h
    exact ⟨fun _ => by decide, by decide⟩
  given := by
    intro i xs h
    obtain rfl : i = 0 := by
      have := (List.getElem?_eq_some_iff.1 h).1
      simpa using this
    simp only [List.getElem?_cons_zero, Option.some.injEq] at h
    subst h
    exact ⟨[3, 0, 0, 0], 0, rfl, ⟨.inl rfl, le_rfl, fun r hr => (exSquareUsed _ _ hr).ge⟩, by decide +kernel⟩

/-- **C102**, an example: `3` is not a square modulo 257, so that no table with this public input satisfies the
circuit; still there is a proof that is accepted with it, for every trapdoor and all transcripts (with challenges
other than zero and the rows). -/
theorem C102_example :
    (∀ t : PlonkTable (ZMod 257), t.rowsAmount = 4 → t.selectors = exSquareTable.selectors →
      t.publicInputs = exSquareTable.publicInputs → ¬ GatesHold t exSquareCircuit.gates 3) ∧
    ∀ (alpha : ZMod 257) (S H : Type) (KT : KzgTranscript S (ZMod 257))
      (T : PlonkTranscript S (ZMod 257) H (List UInt8)) (hash : H)
      (C : CommScheme (ZMod 257) S (List UInt8) (ZMod 257) Bool (KzgScheme (ZMod 257))),
      C = kzgComm (FftLib.ofRoots exRoots257) exPairing257 (batchedKzgSetup exPairing257 4 4 alpha) exCodec257 KT →
      (∀ st, (T.challenge st).1 ≠ 0 ∧ (T.challenge st).1 ^ 4 ≠ 1) →
      ∃ pd o0 proof,
        placeholderPreprocess C T (FftLib.ofRoots exRoots257) 2 (2 ^ 64) exSquareDesc exSquareCircuit [] 3 0 hash
          exSquareTable C.new = some (pd, o0) ∧
        placeholderVerifyPublic C T (FftLib.ofRoots exRoots257) 2 true exSquareDesc exSquareCircuit pd.common
          proof o0 [[3]] = some true := by
  refine ⟨fun t hrows hs hp hg => ?_, ?_⟩
  · have h := hg 0 (by norm_num) _ (List.mem_singleton.2 rfl) (by
      unfold PlonkTable.selectorAt
      rw [hs]
      decide) _ (List.mem_singleton.2 rfl)
    have hsq : ∀ w : ZMod 257, w ^ 2 - 3 ≠ 0 := by decide +kernel
    simp only [evaluateAtRow, Expr.evalM, PlonkTable.cell, PlonkTable.columnsOf, hrows, hp, exSquareTable, rotatedRow,
      List.foldlM_cons, List.foldlM_nil] at h
    cases hc : t.witnesses[0]? with
    | none => simp [hc] at h
    | some col =>
      cases hw : col[0]? with
      | none => simp [hc, hw] at h
      | some w =>
        simp [hc, hw] at h
        exact hsq w h
  · intro alpha S H KT T hash C hC hT
    obtain ⟨_, -, hpp⟩ := C65_preprocessor_succeeds (mqc := 0) exSquareSetup (by decide +kernel) (.inl rfl) 3
    obtain ⟨pd, o0, -, hpre⟩ := hpp C T hash (Has := fun f c => f.Has (FftLib.ofRoots exRoots257) 4 c) (maxLen := 4)
      (by rw [hC]; exact kzgComm_totalSetup exLib257_lawful (by norm_num) KT)
      (hasLaws_lpc 4 (by norm_num)) (by norm_num)
    obtain ⟨st, h⟩ := C102_kzg_forgery exSquareSetup rfl rfl (by norm_num) exSquareRotations exPairing257 4 4 alpha
      exCodec257 exCodec257_lawful (by norm_num) (by norm_num) KT T hash C hC pd o0 hpre
    obtain ⟨proof, hy, -, h⟩ := h (hT st).1
    refine ⟨pd, o0, proof, hpre, (h true).2 (fun k _ hk => (hT st).2 ?_) _ exSquarePublic⟩
    rw [← hy, hk, ← pow_mul, mul_comm, pow_mul]
    have : (FftLib.ofRoots exRoots257).root 2 ^ 4 = 1 := by decide
    rw [this, one_pow]

/-- There is such a transcript. -/
example : ∃ T : PlonkTranscript Nat (ZMod 257) Unit (List UInt8),
    ∀ st, (T.challenge st).1 ≠ 0 ∧ (T.challenge st).1 ^ 4 ≠ 1 :=
  ⟨⟨0, fun _ s => s + 1, fun _ s => s + 1, fun s => (3, s + 1)⟩,
    fun _ => show (3 : ZMod 257) ≠ 0 ∧ (3 : ZMod 257) ^ 4 ≠ 1 by decide⟩

end Crypto3Zk
