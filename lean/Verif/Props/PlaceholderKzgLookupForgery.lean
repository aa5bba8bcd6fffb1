import Verif.Lemmas.BlankedLookup
import Verif.Props.PlaceholderKzgForgery

/-!
# C102: placeholder with KZG and lookups

The zeros after the fixed values that `C102_kzg_forgery` uses also switch off the lookups: the verifier takes the
selectors of the lookup gates and of the lookup tables to be zero.
-/

set_option linter.unusedSectionVars false

namespace Crypto3Zk

open Polynomial

variable {F : Type} [Field F] [LinearOrder F] {L : FftLib F} {A n fuel : Nat} {d : TableDesc} {c : Circuit F}
  {order : List PlonkVar} {t : PlonkTable F} {delta : F} {mqc : Nat}

/-- A constant column is a constant polynomial. -/
theorem dfsPoly_const_eq (hL : L.Lawful A) (hn : n ≤ A) (x : F) : dfsPoly L (List.replicate (2 ^ n) x) = C x := by
  refine eq_of_rows hL hn (dfsPoly_degree hL hn _ (by simp)) (by rw [natDegree_C]; positivity) ?_
  · intro k hk
    rw [dfsPoly_eval_row hL n hn _ (by simp) _ hk, eval_C, List.getD_eq_getElem _ _ (by simpa using hk)]
    simp

/-- A proof with zeros after the fixed values for a circuit with lookups, if the verifier of the scheme accepts what a
prover opens that knows of the zeros. The sorted columns are zero, the partial products are one. -/
theorem padded_lookup_forgery (hS : PlaceholderSetup L A n fuel d c order t) (hcop : c.copies = [])
    (hlk : c.lookups.gates ≠ [])
    (hlparts : ∀ p ∈ c.lookups.parts mqc, p ≠ 0) {S H Com Pr Data Obj : Type} {T : PlonkTranscript S F H Com} {hash : H}
    {C : CommScheme F S Com Pr Data Obj} {pd : PublicData F H Com Data} {o0 : Obj}
    (hpre : placeholderPreprocess C T L n fuel d c order delta mqc hash t C.new = some (pd, o0))
    (pe : Obj → S → Option ((EvalStorage F × Pr) × S))
    (ve : Obj → EvalStorage F × Pr → OMap Com → S → Option (Bool × S))
    {C' : CommScheme F S Com Pr Data Obj} (hC' : C' = { C with proofEval := pe, verifyEval := ve })
    {maxLen : Nat} {okPoints : F → List F → Prop} (hT : C'.Total (fun f c => f.Has L A c) maxLen)
    (hO : ∀ y, C'.Opens (fun f c => f.Has L A c) maxLen (okPoints y) fun _ => True)
    (hCo : ∀ y, C'.Complete (fun f c => f.Has L A c) maxLen (okPoints y) fun _ => True)
    (hR : C'.RootLaws) (hmax : 2 ^ n ≤ maxLen)
    (hok : ∀ y ≠ 0, ∀ pts, verifierPoints L n d c pd.common y = some pts →
      ∀ k i, okPoints y (lpcRequested k i pts))
    (hve : ∀ vcom l p qcom y pts v e st st', verifierPoints L n d c pd.common y = some pts →
      C.run (C.setup o0 (T.key pd.common.hash pd.common.fixedCommitment) pd.common.schemeData).2
        (honestSizes c (honestPolys L pd.perm t []
          (List.replicate (c.lookups.inputCount + c.lookups.optionCount) (List.replicate (2 ^ n) 0))
          (List.replicate (2 ^ n) 1 :: List.replicate ((c.lookups.parts mqc).length - 1) (List.replicate (2 ^ n) 1))
          [[0]]) ++ pts) = some v →
      ve v e ((proofCommitments vcom (some l) (some p) qcom).insert FIXED_BATCH pd.common.fixedCommitment) st =
        some (true, st') →
      C.verifyEval v (padStorage FIXED_BATCH (zeroValues d (pd.common.rotations.map List.length).sum) e.1, e.2)
        ((proofCommitments vcom (some l) (some p) qcom).insert FIXED_BATCH pd.common.fixedCommitment) st =
        some (true, st')) :
    ∃ st : S, (T.challenge st).1 ≠ 0 → ∃ proof, proof.challenge = (T.challenge st).1 ∧
      VariableOpened L n d c pd.common t proof ∧
      ∀ asserts, placeholderVerify C T L n asserts d c pd.common proof o0 = some true ∧
        ((∀ k < 2 ^ n, proof.challenge ≠ L.root n ^ k) → ∀ publicInput, PublicInputOf d c n t publicInput →
          placeholderVerifyPublic C T L n asserts d c pd.common proof o0 publicInput = some true) := by
  have hL := hS.lib
  have hp := preprocess_facts hpre
  have hparts : pd.perm.parts = 0 := by
    obtain ⟨-, -, -, -, -, -, -, -, -, -, -, -, s13⟩ := permPreprocess_shape hL hS.small hp.perm
    rw [order_nil hS hcop] at s13
    simpa [permutationParts] using s13.symm
  obtain ⟨-, -, -, -, -, -, -, -, -, -, s11, s12, -⟩ := permPreprocess_shape hL hS.small hp.perm
  set m := c.lookups.inputCount + c.lookups.optionCount with hmdef
  set rots := pd.common.rotations with hrots
  set pad := padStorage FIXED_BATCH (zeroValues (F := F) d (rots.map List.length).sum) with hpad
  have hp' : PreFacts C' T L n fuel d c order delta mqc hash t C'.new pd o0 := by
    subst hC'
    exact
    ⟨hp.perm, hp.indices, hp.run, hp.root, hp.rotations, hp.data, hp.desc, hp.degree, hp.parts, hp.lookupParts,
      hp.hashEq, hp.mqcEq, hp.lagrange0, hp.Z, hp.limit, hp.degree_pos⟩
  let s0 := C.setup o0 (T.key pd.common.hash pd.common.fixedCommitment) pd.common.schemeData
  let st0 := s0.1
  let Pst : ProverStrategy F Com := ⟨fun _ => [], fun _ => List.replicate m (List.replicate (2 ^ n) 0),
    fun _ _ => List.replicate (2 ^ n) 1 :: List.replicate ((c.lookups.parts mqc).length - 1) (List.replicate (2 ^ n) 1),
    fun _ _ _ => [[0]]⟩
  have hP : Pst.Fits n c pd.perm.parts :=
    { permLen := by intro v p h; simp [Pst] at h
      sortedLen := by
        intro v p h
        rw [(List.mem_replicate.1 h).2]; simp
      vlLen := by
        intro v l p h
        obtain rfl : p = List.replicate (2 ^ n) 1 := by
          rcases List.mem_cons.1 h with h | h
          · exact h
          · exact (List.mem_replicate.1 h).2
        simp
      chunksLen := by
        intro v l p x h
        simp only [Pst, List.mem_singleton] at h
        rw [h]
        exact Nat.one_le_two_pow
      copies := by intro v; simp [Pst, hcop]
      parts := by intro v; simp [Pst, hparts]
      lookups := by intro v l; simp [Pst, hlk]
      noLookups := by intro v h; exact absurd h hlk }
  let st1 := fun v : Com => T.absorb v st0
  let st2 := fun (v l : Com) => (drawN T.challenge (m - 1) (drawN T.challenge ((c.lookups.parts mqc).length - 1)
    (T.challenge (T.challenge (T.absorb l (T.challenge (st1 v)).2)).2).2).2).2
  let stg := fun (v : Com) (l p : Option Com) => T.absorb (p.getD v) (st2 v (l.getD v))
  obtain ⟨vcom, lcom, pcom, qcom, hlc, hpc, -, -, hmain⟩ := any_prover_committed (C := C')
    (okPoints := okPoints) hT hO hCo
    hR (hasLaws_lpc A hS.small) hmax hS hp' trivial Pst hP
    (fun v l p q => T.challenge (T.absorb q (drawN T.challenge 8 (T.challenge (stg v l p)).2).2))
  obtain ⟨l, rfl⟩ := hlc hlk
  obtain ⟨p, rfl⟩ := hpc (Or.inr hlk)
  refine ⟨T.absorb qcom (drawN T.challenge 8 (T.challenge (stg vcom (some l) (some p))).2).2, fun hy0 => ?_⟩
  obtain ⟨e, hz, pts, w, st', hpts, hw, hver⟩ := hmain fun k i pts hpts => hok _ hy0 pts hpts k i
  set y := T.challenge (T.absorb qcom (drawN T.challenge 8 (T.challenge (stg vcom (some l) (some p))).2).2) with hy
  obtain ⟨c1, c2, c3, c4, -, -⟩ := find_proofCommitments vcom (some l) (some p) qcom
  obtain ⟨k, hm1, hm2⟩ := padded_permSize hz (rots.map List.length).sum
  obtain ⟨ev, hev1, hev2⟩ := padded_columnsAtY hz
  obtain ⟨hq1, hq2⟩ := hz.quotient
  have hq1' : (pad e.1).batchSize QUOTIENT_BATCH = some 1 := by
    rw [EvalStorage.batchSize] at hq1 ⊢
    rw [hpad, find_padStorage, if_neg (by decide)]
    exact hq1
  have hq2' : (List.range 1).mapM (fun i => (pad e.1).get QUOTIENT_BATCH i 0) =
      some ([[0]].map (evalPoly · y.1)) :=
    mapM_mono _ _ (fun i v h => get_padStorage _ _ _ _ _ _ _ h) _ _ hq2
  have hsz : sizeOps (pad e.1) c = some (honestSizes c (honestPolys L pd.perm t (Pst.perm vcom) (Pst.sorted vcom)
      (Pst.vl vcom (some l)) (Pst.chunks vcom (some l) (some p)))) := by
    rw [← hz.sizes]
    unfold sizeOps EvalStorage.batchSize
    simp only [hpad, find_padStorage, show VARIABLE_BATCH ≠ FIXED_BATCH by decide,
      show QUOTIENT_BATCH ≠ FIXED_BATCH by decide, show PERMUTATION_BATCH ≠ FIXED_BATCH by decide,
      show LOOKUP_BATCH ≠ FIXED_BATCH by decide, if_false]
  have hw' : C.run s0.2 (honestSizes c (honestPolys L pd.perm t (Pst.perm vcom) (Pst.sorted vcom)
      (Pst.vl vcom (some l)) (Pst.chunks vcom (some l) (some p))) ++ pts) = some w := by subst hC'; exact hw
  have hver' := hve vcom l p qcom _ pts w e _ st' hpts hw' (by subst hC'; exact hver)
  have hacc : ∀ asserts, placeholderVerify C T L n asserts d c
      pd.common ⟨proofCommitments vcom (some l) (some p) qcom, y.1, (pad e.1, e.2)⟩ o0 = some true := by
    intro asserts
    have eperm : (if c.copies.length > 0 then do
        let claims ← readPermClaims (pad e.1) d pd.common
          (pd.common.permutedColumns.length + (d.constant + d.selector))
          (evalPoly pd.perm.qLast y.1) (evalPoly pd.perm.qBlind y.1)
        permVerify T.challenge pd.perm.lagrange0 pd.common.mqc pd.common.permutationParts claims y.1 (st1 vcom)
      else some ((0, 0, 0), st1 vcom)) = some ((0, 0, 0), st1 vcom) := if_neg (by simp [hcop])
    have elook : (if c.lookups.gates.length > 0 then do
        let claims ← readLookupClaims (pad e.1) pd.common (evalPoly pd.perm.lagrange0 y.1)
          (evalPoly pd.perm.qLast y.1) (evalPoly pd.perm.qBlind y.1)
        let lcom ← (proofCommitments vcom (some l) (some p) qcom).find LOOKUP_BATCH
        lookupVerify T.challenge T.absorb lcom c.lookups pd.common.mqc ev claims (st1 vcom)
      else some ((0, 0, 0, 0), st1 vcom)) = some ((0, 0, 0, 0), st2 vcom l) := by
      have hcl := readLookupClaims_pad pd.common (zeroValues (F := F) d (rots.map List.length).sum) e.1 _ _ _ _
        (hz.lookupClaims (common := pd.common) (mqc := mqc) (V := List.replicate (2 ^ n) 1)
        (partitions := List.replicate ((c.lookups.parts mqc).length - 1) (List.replicate (2 ^ n) 1)) hp.parts
        (hP.parts _) rfl hp.lookupParts rfl (by simp) hlk s11)
      obtain ⟨hv, hi⟩ := blanked_lookups hS hp hlk hev2
      rw [if_pos (List.length_pos_iff.2 hlk), hcl, c2]
      simp only [Option.bind_eq_bind, Option.bind_some]
      have h0 := dfsPoly_const_eq hL hS.small (0 : F)
      have h1 := dfsPoly_const_eq hL hS.small (1 : F)
      simp only [trueLookupClaims, Pst, List.map_replicate, h0, h1, eval_C]
      rw [hp.mqcEq]
      exact lookupVerify_zeros T.challenge T.absorb l c.lookups mqc ev _ _ _ _ _ (st1 vcom) _ _ hv hi hlparts
        (lookup_parts_sum hlk) lookup_parts_ne_nil
    have epc : (if c.copies.length > 0 ∨ c.lookups.gates.length > 0 then do
        let pcom ← (proofCommitments vcom (some l) (some p) qcom).find PERMUTATION_BATCH
        some (T.absorb pcom (st2 vcom l))
      else some (st2 vcom l)) = some (stg vcom (some l) (some p)) := by
      rw [if_pos (Or.inr (List.length_pos_iff.2 hlk)), c3]
      rfl
    unfold placeholderVerify
    refine bind_step c1 ?_
    refine bind_step (get_padStorage _ _ _ _ _ _ _ hz.qLast.1) ?_
    refine bind_step (get_padStorage _ _ _ _ _ _ _ hz.qBlind.1) ?_
    refine bind_step hm1 ?_
    rw [hm2, hp.lagrange0]
    refine ite_step eperm ?_
    refine bind_step hev1 ?_
    refine ite_step2 elook ?_
    refine ite_step epc ?_
    refine bind_step (blanked_gates hS hp hev2 T.challenge _ _) ?_
    refine bind_step c4 ?_
    refine (if_neg (by simp [hy])).trans ?_
    refine bind_step hsz ?_
    refine bind_step hpts ?_
    refine bind_step hw' ?_
    refine bind_step hver' ?_
    refine (if_pos rfl).trans ?_
    refine bind_step hq1' ?_
    refine bind_step hq2' ?_
    show some (decide _) = some true
    rw [Option.some_inj, decide_eq_true_iff, foldl_zeros _ (by simp)]
    simp [consolidateQuotient, evalPoly]
  have hopen : VariableOpened L n d c pd.common t
      ⟨proofCommitments vcom (some l) (some p) qcom, y.1, (pad e.1, e.2)⟩ := by
    intro pts' hpts'
    have hrl := (columnsRotations_spec d c _ hp.rotations).1
    rw [verifierPoints_eq L n d c pd.common _ hrl, hp.parts, hp.desc, Option.some_inj] at hpts'
    have hf := hz.find VARIABLE_BATCH (Or.inr (Or.inl rfl))
    have hf' : OMap.find (pad e.1) VARIABLE_BATCH = OMap.find e.1 VARIABLE_BATCH := by
      rw [hpad, find_padStorage, if_neg (by decide)]
    refine hf'.trans (hf.trans ?_)
    rw [← hpts', Option.some_inj]
    simp only [VARIABLE_BATCH, honestPolys]
    rw [← List.map_append]
    apply List.ext_getElem (by simp)
    intro i h1 h2
    simp only [List.getElem_mapIdx, List.getElem_map]
    refine List.map_congr_left fun x _ => ?_
    rw [dfsPoly, eval_toPoly]
  refine ⟨_, rfl, hopen, fun asserts => ⟨hacc asserts, fun hrow publicInput hpi => ?_⟩⟩
  rw [C38_verdict hL hS.small hS.rows asserts publicInput fun i xs hi => (hpi.fits i xs hi).2]
  refine ⟨hpi.sizes, hacc asserts, ?_⟩
  intro i xs hi
  obtain ⟨col, r, hcol, hrr, hrot⟩ := hpi.given i xs hi
  have hlen : col.length = 2 ^ n := hS.fits.rect.2.1 col (List.mem_of_getElem? hcol)
  refine ⟨(hpi.fits i xs hi).1, fun k hk => hrow k (hk.trans_le (hpi.fits i xs hi).2), ?_⟩
  rw [first_claim hpre hS.fits.witness hS.fits.publicInput hcol hrr hopen, hrot,
    dfsPoly_rotate hL hS.small r col hlen]

/-- **C102**, finding: copy constraints are the only thing that is in the way of the forgery. For every circuit without
copy constraints, whatever its gates and its lookups are (if no part of the lookups is empty), every table (also one that
violates the gates and the lookups), every key, every serialisation of points and every transcript, there is a proof
that the verifier accepts, unless the last challenge is zero. It is accepted with assertions, and with the public inputs
of the table. -/
theorem C102_kzg_lookup_forgery (hS : PlaceholderSetup L A n fuel d c order t) (hcop : c.copies = [])
    (hlparts : c.lookups.gates ≠ [] → ∀ p ∈ c.lookups.parts mqc, p ≠ 0) (hn : 1 ≤ n) (hr : RotationsDistinct n d c)
    (hu : c.lookups.gates ≠ [] → 2 ≤ d.usableRows)
    {S H G1 G2 GT : Type} [AddCommGroup G1] [Module F G1] [AddCommGroup G2] [Module F G2]
    [AddCommGroup GT] [Module F GT] [DecidableEq GT] (P : Pairing F G1 G2 GT) (dk tk : Nat) (alpha : F)
    (codec : PointCodec G1) (hcodec : codec.Lawful) (hdk : 2 ^ n ≤ dk) (htk : 2 ^ n ≤ tk) (KT : KzgTranscript S F)
    (T : PlonkTranscript S F H (List UInt8)) (hash : H) (C : CommScheme F S (List UInt8) G1 Bool (KzgScheme F))
    (hC : C = kzgComm L P (batchedKzgSetup P dk tk alpha) codec KT)
    (pd : PublicData F H (List UInt8) Bool) (o0 : KzgScheme F)
    (hpre : placeholderPreprocess C T L n fuel d c order delta mqc hash t C.new = some (pd, o0)) :
    ∃ st : S, (T.challenge st).1 ≠ 0 → ∃ proof, proof.challenge = (T.challenge st).1 ∧
      VariableOpened L n d c pd.common t proof ∧
      ∀ asserts, placeholderVerify C T L n asserts d c pd.common proof o0 = some true ∧
        ((∀ k < 2 ^ n, proof.challenge ≠ L.root n ^ k) → ∀ publicInput, PublicInputOf d c n t publicInput →
          placeholderVerifyPublic C T L n asserts d c pd.common proof o0 publicInput = some true) := by
  by_cases hlk : c.lookups.gates = []
  · exact C102_kzg_forgery hS hcop hlk hn hr P dk tk alpha codec hcodec hdk htk KT T hash C hC pd o0 hpre
  subst hC
  have hL := hS.lib
  have hp := preprocess_facts hpre
  have hdk0 : 0 < dk := lt_of_lt_of_le (by positivity) hdk
  have hR0 := kzgComm_rootLaws (L := L) (P := P) (codec := codec) KT (batchedKzgSetup P dk tk alpha)
  refine padded_lookup_forgery (okPoints := fun y xs => KzgPoints dk (challengeCoset L n y) xs) hS hcop hlk
    (hlparts hlk) hpre _ _
    (C' := paddedComm L P (batchedKzgSetup P dk tk alpha) codec KT FIXED_BATCH
      (zeroValues (F := F) d (pd.common.rotations.map List.length).sum)) rfl
    (kzgComm_total (P := P) (t := tk) (alpha := alpha) (codec := codec) hL hdk0 KT)
    (fun y => paddedComm_opens hL hcodec KT FIXED_BATCH _ ((challengeCoset_card y).trans htk) hdk0)
    (fun y => paddedComm_complete hL hcodec KT FIXED_BATCH _ ((challengeCoset_card y).trans htk) hdk0)
    ⟨hR0.apply, hR0.setup⟩ hdk ?_ (fun _ _ _ _ _ _ _ _ _ _ _ _ h => h)
  intro y hy0 pts hpts k i
  have hnd := requested_nodup hS hp hn hr hu hy0 hpts k i
  have hsub : ∀ x ∈ lpcRequested k i pts, x ∈ challengeCoset L n y := by
    intro x hx
    obtain ⟨r, rfl⟩ := requested_rotation (columnsRotations_spec d c _ hp.rotations).1 hpts k i x hx
    exact mem_challengeCoset hL hS.small hy0 r
  refine ⟨hnd, ?_, hsub⟩
  rw [← List.toFinset_card_of_nodup hnd]
  exact (Finset.card_le_card fun x hx => hsub x (List.mem_toFinset.1 hx)).trans ((challengeCoset_card _).trans hdk)

/-- one witness, public input and constant column, three selectors; three usable rows of four -/
def exListedDesc : TableDesc := ⟨1, 1, 1, 3, 3, 4⟩

/-- The public input is the square of the witness, and the witness is in the lookup table. -/
def exListedCircuit : Circuit (ZMod 257) where
  gates := [⟨0, [.bin .sub (.pow (.term ⟨[⟨0, 0, true, .witness⟩], 1⟩) 2)
    (.term ⟨[⟨0, 0, true, .publicInput⟩], 1⟩)]⟩]
  copies := []
  lookups := ⟨[⟨1, [⟨1, [.term ⟨[⟨0, 0, true, .witness⟩], 1⟩]⟩]⟩], [⟨1, 2, [[⟨0, 0, true, .constant⟩]]⟩]⟩
  publicInputSizes := [1]

/-- the witness `a`, the public input `9`, and the lookup table `2, 4` in the rows one and two -/
def exListedTable (a0 a1 a2 a3 : ZMod 257) : PlonkTable (ZMod 257) :=
  ⟨[[a0, a1, a2, a3]], [[9, 0, 0, 0]], [[0, 2, 4, 0]], [[1, 0, 0, 0], [1, 0, 0, 0], [0, 1, 1, 0]]⟩

theorem exListedSetup : PlaceholderSetup (FftLib.ofRoots exRoots257) 4 2 (2 ^ 64) exListedDesc exListedCircuit
    [] (exListedTable 3 0 0 0) where
  lib := exLib257_lawful
  small := by norm_num
  rows := rfl
  usable := by decide
  used := by decide
  width := by decide
  rows32 := by norm_num
  fits := ⟨rfl, rfl, rfl, rfl, by unfold PlonkTable.Rectangular; decide, by decide⟩
  copies := by
    intro c hc v hv
    simp [exListedCircuit] at hc
  nodup := by decide
  members := by
    intro v
    simp [permutedVars, exListedCircuit]
  gates := by
    intro g hg
    simp only [exListedCircuit, List.mem_singleton] at hg
    subst hg
    refine ⟨by decide, ?_⟩
    intro c hc v hv
    simp only [List.mem_singleton] at hc
    subst hc
    simp only [Expr.visitVars, List.mem_append, List.mem_singleton] at hv
    rcases hv with rfl | rfl <;> exact ⟨_, rfl, by decide⟩
  lookups := by
    refine ⟨fun g hg => ?_, fun tab htab => ?_⟩
    · simp only [exListedCircuit, List.mem_singleton] at hg
      subst hg
      refine ⟨by decide, fun c hc e he v hv => ?_⟩
      simp only [List.mem_singleton] at hc
      subst hc
      simp only [List.mem_singleton] at he
      subst he
      simp only [Expr.visitVars, List.mem_singleton] at hv
      subst hv
      exact ⟨_, rfl, by decide⟩
    · simp only [exListedCircuit, List.mem_singleton] at htab
      subst htab
      refine ⟨by decide, fun o ho => ?_⟩
      simp only [List.mem_singleton] at ho
      subst ho
      refine ⟨rfl, fun v hv => ?_⟩
      simp only [List.mem_singleton] at hv
      subst hv
      decide
  degree := by
    have : exListedCircuit.maxDegree = 2 := by decide +kernel
    rw [this]
    norm_num
  fuel := le_rfl

theorem exListedUsed (i : Nat) (r : Int) (h : VarUsed exListedDesc exListedCircuit i r) : r = 0 := by
  obtain ⟨v, hv, -, rfl⟩ := h
  revert v
  decide +kernel

theorem exListedRotations : RotationsDistinct 2 exListedDesc exListedCircuit := by
  have h : ∀ i r, (r = 0 ∨ VarUsed exListedDesc exListedCircuit i r ∨
      LookupTableUsed exListedDesc exListedCircuit i r) → r = 0 ∨ r = 1 := by
    rintro i r (h | h | ⟨-, h, -⟩)
    · exact .inl h
    · exact .inl (exListedUsed i r h)
    · exact .inr h
  intro i r r' h1 h2 hm
  rcases h i r h1 with rfl | rfl <;> rcases h i r' h2 with rfl | rfl
  · rfl
  · exact absurd hm (by decide)
  · exact absurd hm (by decide)
  · rfl

theorem exListedPublic : PublicInputOf exListedDesc exListedCircuit 2 (exListedTable 3 0 0 0) [[9]] where
  sizes := .inr rfl
  fits := by
    intro i xs h
    obtain rfl : i = 0 := by
      have := (List.getElem?_eq_some_iff.1 h).1
      simpa using this
    simp only [List.getElem?_cons_zero, Option.some.injEq] at h
    subst h
    exact ⟨fun _ => by decide, by decide⟩
  given := by
    intro i xs h
    obtain rfl : i = 0 := by
      have := (List.getElem?_eq_some_iff.1 h).1
      simpa using this
    simp only [List.getElem?_cons_zero, Option.some.injEq] at h
    subst h
    exact ⟨[9, 0, 0, 0], 0, rfl, ⟨.inl rfl, le_rfl, fun r hr => (exListedUsed _ _ hr).ge⟩, by decide +kernel⟩

/-- **C102**, an example with a lookup: `9` is the square of `3` and of `-3` only, and neither is in the lookup table
`2, 4`, so that no witness satisfies both the gate and the lookup; still there is a proof that is accepted with the
public input `9`, for every trapdoor and all transcripts (with challenges other than zero and the rows). -/
theorem C102_lookup_example :
    (∀ a0 a1 a2 a3, GatesHold (exListedTable a0 a1 a2 a3) exListedCircuit.gates 3 →
      ¬ LookupsHold (exListedTable a0 a1 a2 a3) exListedCircuit.lookups 3) ∧
    ∀ (alpha : ZMod 257) (S H : Type) (KT : KzgTranscript S (ZMod 257))
      (T : PlonkTranscript S (ZMod 257) H (List UInt8)) (hash : H)
      (C : CommScheme (ZMod 257) S (List UInt8) (ZMod 257) Bool (KzgScheme (ZMod 257))),
      C = kzgComm (FftLib.ofRoots exRoots257) exPairing257 (batchedKzgSetup exPairing257 4 4 alpha) exCodec257 KT →
      (∀ st, (T.challenge st).1 ≠ 0 ∧ (T.challenge st).1 ^ 4 ≠ 1) →
      ∃ pd o0 proof,
        placeholderPreprocess C T (FftLib.ofRoots exRoots257) 2 (2 ^ 64) exListedDesc exListedCircuit [] 3 0 hash
          (exListedTable 3 0 0 0) C.new = some (pd, o0) ∧
        placeholderVerifyPublic C T (FftLib.ofRoots exRoots257) 2 true exListedDesc exListedCircuit pd.common
          proof o0 [[9]] = some true := by
  refine ⟨fun a0 a1 a2 a3 hg hl => ?_, ?_⟩
  · have hr : rotatedRow 4 0 0 = some 0 := by decide +kernel
    have cell : (exListedTable a0 a1 a2 a3).cell 0 ⟨0, 0, true, .witness⟩ = some a0 ∧
        (exListedTable a0 a1 a2 a3).cell 0 ⟨0, 0, true, .publicInput⟩ = some 9 := by
      have hrows : (exListedTable a0 a1 a2 a3).rowsAmount = 4 := rfl
      unfold PlonkTable.cell
      rw [hrows]
      simp [PlonkTable.columnsOf, exListedTable, hr]
    have h1 : a0 ^ 2 - 9 = 0 := by
      have := hg 0 (by norm_num) _ (List.mem_cons_self ..) one_ne_zero _ (List.mem_cons_self ..)
      simpa [evaluateAtRow, Expr.evalM, cell.1, cell.2] using this
    have h2 : a0 = 2 ∨ a0 = 4 := by
      obtain ⟨k, tab, hk, -, o, ho, i, hi, hs, h⟩ := hl 0 (by norm_num) _ (List.mem_cons_self ..) one_ne_zero _
        (List.mem_cons_self ..)
      obtain rfl := List.mem_singleton.1 (List.mem_of_getElem? hk)
      obtain rfl := List.mem_singleton.1 ho
      simp only [List.map_cons, List.map_nil, evaluateAtRow, Expr.evalM, List.foldlM_cons, List.foldlM_nil,
        cell.1, optionRow] at h
      simp only [Option.pure_def, Option.bind_eq_bind, Option.bind_some, one_mul, List.cons.injEq, Option.some.injEq,
        and_true] at h
      rw [h]
      interval_cases i
      · exact absurd rfl hs
      · exact .inl rfl
      · exact .inr rfl
    rcases h2 with rfl | rfl
    · exact absurd h1 (by decide)
    · exact absurd h1 (by decide)
  · intro alpha S H KT T hash C hC hT
    obtain ⟨_, -, hpp⟩ := C65_preprocessor_succeeds (mqc := 0) exListedSetup (by decide +kernel) (.inl rfl) 3
    obtain ⟨pd, o0, -, hpre⟩ := hpp C T hash (Has := fun f c => f.Has (FftLib.ofRoots exRoots257) 4 c) (maxLen := 4)
      (by rw [hC]; exact kzgComm_totalSetup exLib257_lawful (by norm_num) KT)
      (hasLaws_lpc 4 (by norm_num)) (by norm_num)
    obtain ⟨st, h⟩ := C102_kzg_lookup_forgery exListedSetup rfl (fun _ => by decide +kernel) (by norm_num)
      exListedRotations (fun _ => by decide) exPairing257 4 4 alpha
      exCodec257 exCodec257_lawful (by norm_num) (by norm_num) KT T hash C hC pd o0 hpre
    obtain ⟨proof, hy, -, h⟩ := h (hT st).1
    refine ⟨pd, o0, proof, hpre, (h true).2 (fun k _ hk => (hT st).2 ?_) _ exListedPublic⟩
    rw [← hy, hk, ← pow_mul, mul_comm, pow_mul]
    have : (FftLib.ofRoots exRoots257).root 2 ^ 4 = 1 := by decide
    rw [this, one_pow]

end Crypto3Zk
