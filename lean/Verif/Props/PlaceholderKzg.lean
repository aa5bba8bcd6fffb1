import Verif.Lemmas.PlaceholderKzg
import Verif.Props.PlaceholderExample
import Mathlib.Data.Int.ModEq

/-!
# C100: placeholder with KZG as its commitment scheme

The test of the proof system also runs it with `kzg_commitment_scheme`
(test/systems/plonk/placeholder/placeholder.cpp). Unlike LPC, the scheme interpolates the values of each
polynomial at its points, which therefore must be different.
-/

set_option linter.unusedSectionVars false

namespace Crypto3Zk

variable {F : Type} [Field F]

/-- No column is read in two rotations that are the same row of a table with `2 ^ n` rows, with those that the
arguments of the proof system add. -/
def RotationsDistinct (n : Nat) (d : TableDesc) (c : Circuit F) : Prop :=
  ∀ i r r', (r = 0 ∨ VarUsed d c i r ∨ LookupTableUsed d c i r) →
    (r' = 0 ∨ VarUsed d c i r' ∨ LookupTableUsed d c i r') → r ≡ r' [ZMOD 2 ^ n] → r = r'

section points

variable [DecidableEq F] {L : FftLib F} {A n fuel : Nat} {d : TableDesc} {c : Circuit F} {order : List PlonkVar}
  {t : PlonkTable F} {delta : F} {mqc : Nat}

theorem shifted_eq_iff (hL : L.Lawful A) (hn : n ≤ A) {y : F} (hy : y ≠ 0) (r r' : Int) :
    y * L.root n ^ r = y * L.root n ^ r' ↔ r ≡ r' [ZMOD 2 ^ n] := by
  have h0 := root_ne_zero hL n hn
  rw [mul_right_inj' hy, ← div_eq_one_iff_eq (zpow_ne_zero _ h0), ← zpow_sub₀ h0,
    (root_primitive hL n hn).zpow_eq_one_iff_dvd, Int.modEq_comm, Int.modEq_iff_dvd]
  norm_num

/-- the points of the rotations of the challenge -/
def challengeCoset (L : FftLib F) (n : Nat) (y : F) : Finset F :=
  (Finset.range (2 ^ n)).image fun k => y * L.root n ^ k

theorem challengeCoset_card (y : F) : (challengeCoset L n y).card ≤ 2 ^ n :=
  Finset.card_image_le.trans (by simp)

theorem mem_challengeCoset (hL : L.Lawful A) (hn : n ≤ A) {y : F} (hy : y ≠ 0) (r : Int) :
    y * L.root n ^ r ∈ challengeCoset L n y := by
  have hpos : (0 : Int) < 2 ^ n := by positivity
  refine Finset.mem_image.2 ⟨(r % 2 ^ n).toNat, ?_, ?_⟩
  · have h1 := Int.emod_lt_of_pos r hpos
    have h2 := Int.emod_nonneg r hpos.ne'
    rw [Finset.mem_range]
    zify
    rw [Int.toNat_of_nonneg h2]
    exact h1
  · have h2 := Int.emod_nonneg r hpos.ne'
    rw [← zpow_natCast, Int.toNat_of_nonneg h2, shifted_eq_iff hL hn hy]
    exact Int.mod_modEq r _

theorem pointOps_requested_other (L : FftLib F) (n : Nat) (d : TableDesc) (c : Circuit F)
    (rotations : List (List Int)) (parts usable start : Nat) (y : F) (k i : Nat) (hk : 4 < k) :
    lpcRequested k i (pointOps L n d c rotations parts usable start y) = [] := by
  simp only [pointOps, lpcRequested_append, columnPoints_requested, range_requested, lpcRequested_ite,
      lpcRequested_cons, lpcRequested_points1, lpcRequested_pointsTo1]
  simp only [show ¬ (VARIABLE_BATCH = k) by unfold VARIABLE_BATCH; omega,
    show ¬ (PERMUTATION_BATCH = k) by unfold PERMUTATION_BATCH; omega,
    show ¬ (QUOTIENT_BATCH = k) by unfold QUOTIENT_BATCH; omega,
    show ¬ (LOOKUP_BATCH = k) by unfold LOOKUP_BATCH; omega,
    show ¬ (FIXED_BATCH = k) by unfold FIXED_BATCH; omega, false_and, if_false, List.append_nil,
    ite_self]

/-- The points of each polynomial are different. -/
theorem requested_nodup {S H Com Pr Data Obj : Type} {C : CommScheme F S Com Pr Data Obj}
    {T : PlonkTranscript S F H Com} {hash : H} {obj o0 : Obj} {pd : PublicData F H Com Data}
    (hS : PlaceholderSetup L A n fuel d c order t)
    (hp : PreFacts C T L n fuel d c order delta mqc hash t obj pd o0) (hn : 1 ≤ n)
    (hr : RotationsDistinct n d c) (hu : c.lookups.gates ≠ [] → 2 ≤ d.usableRows)
    {y : F} (hy : y ≠ 0) {pts : List (LpcOp F)} (h : verifierPoints L n d c pd.common y = some pts)
    (k i : Nat) : (lpcRequested k i pts).Nodup := by
  have hL := hS.lib
  have hnA := hS.small
  obtain ⟨hrl, hsorted, -, hmem⟩ := columnsRotations_spec d c _ hp.rotations
  rw [verifierPoints_eq L n d c pd.common _ hrl, hp.parts, hp.desc, Option.some_inj] at h
  subst h
  have he : (L.domain n).elem 1 = L.root n := pow_one _
  have h2 : (2 : Int) ≤ 2 ^ n := by
    calc (2 : Int) = 2 ^ 1 := by norm_num
      _ ≤ 2 ^ n := pow_le_pow_right₀ (by norm_num) hn
  have hcol : ∀ j < d.width, ((pd.common.rotations.getD j []).map fun r => y * L.root n ^ r).Nodup := by
    intro j hj
    have hs : (pd.common.rotations.getD j []).Nodup := by
      have hj' : j < pd.common.rotations.length := by omega
      rw [List.getD_eq_getElem _ _ hj']
      exact (hsorted _ (List.getElem_mem hj')).imp fun h => ne_of_lt h
    refine hs.map_on ?_
    intro r hr1 r' hr2 heq
    exact hr j r r' ((hmem j hj r).1 hr1) ((hmem j hj r').1 hr2) ((shifted_eq_iff hL hnA hy r r').1 heq)
  have hshift : ∀ m m' : Nat, m < 2 ^ n → m' < 2 ^ n → m ≠ m' →
      y * L.root n ^ m ≠ y * L.root n ^ m' := by
    intro m m' hm hm' hne heq
    have h := (shifted_eq_iff hL hnA hy m m').1 (by simpa using heq)
    apply hne
    rw [Int.ModEq, Int.emod_eq_of_lt (by positivity) (by exact_mod_cast hm),
      Int.emod_eq_of_lt (by positivity) (by exact_mod_cast hm')] at h
    exact_mod_cast h
  have h2' : 1 < 2 ^ n := by exact_mod_cast h2
  have h01 : y ≠ y * L.root n := by
    have := hshift 0 1 (by omega) h2' (by omega)
    simpa using this
  have husable : d.usableRows < 2 ^ n := hS.rows ▸ hS.usable
  have hparts : c.copies ≠ [] → pd.perm.parts ≠ 0 := by
    intro hne
    have hps := hS.permSetup_of hp.perm hp.indices
    obtain ⟨σ, hf⟩ := hps.facts
    exact hps.parts_pos hne hf
  obtain ⟨q1, q2, q3, q4, q5⟩ := pointOps_requested L n d c pd.common.rotations pd.perm.parts d.usableRows
    (pd.common.permutedColumns.length * 2 + 2) y i
  have hw : d.width = d.witness + d.publicInput + d.constant + d.selector := rfl
  rcases Nat.lt_or_ge 4 k with hk | hk
  · rw [pointOps_requested_other _ _ _ _ _ _ _ _ _ _ _ hk]
    exact List.nodup_nil
  interval_cases k
  · rw [show (0 : Nat) = FIXED_BATCH from rfl, q5 (by omega)]
    split_ifs
    · simpa [he] using h01
    · simp
    · rw [he]
      exact hcol _ (by omega)
    · simp
  · rw [show (1 : Nat) = VARIABLE_BATCH from rfl, q1]
    split_ifs
    · rw [he]; exact hcol _ (by omega)
    · simp
  · rw [show (2 : Nat) = PERMUTATION_BATCH from rfl, q2, he]
    by_cases hc : c.copies = []
    · simp only [hc, ne_eq, not_true_eq_false, false_and, if_false, or_false, List.append_nil]
      split_ifs <;> simp_all
    · have := hparts hc
      split_ifs <;> simp_all <;> omega
  · rw [show (3 : Nat) = QUOTIENT_BATCH from rfl, q4]
    simp
  · rw [show (4 : Nat) = LOOKUP_BATCH from rfl, q3]
    split_ifs with hl
    · have hu := hu hl
      have a1 := hshift 0 d.usableRows (by omega) husable (by omega)
      have a2 := hshift 1 d.usableRows (by omega) husable (by omega)
      rw [pow_zero, mul_one] at a1
      rw [pow_one] at a2
      simp [he, h01, a1, a2]
    · simp

/-- **C100**, why two usable rows are asked for: with lookups and one usable row, the sorted columns of the
lookup argument are asked for at one point twice, whatever the challenge. -/
theorem C100_one_usable_row {H Com Data : Type} {common : CommonData F H Com Data}
    (hr : common.rotations.length = d.width) (hl : c.lookups.gates ≠ []) (hu : common.desc.usableRows = 1)
    (y : F) : ∃ pts, verifierPoints L n d c common y = some pts ∧
      ∀ i, ¬ (lpcRequested LOOKUP_BATCH i pts).Nodup := by
  refine ⟨_, verifierPoints_eq L n d c common y hr, fun i => ?_⟩
  rw [(pointOps_requested L n d c _ _ _ _ y i).2.2.1, if_pos hl, hu]
  simp

end points

section complete

variable [LinearOrder F] {L : FftLib F} {A n fuel : Nat} {d : TableDesc} {c : Circuit F} {order : List PlonkVar}
  {t : PlonkTable F} {mqc : Nat}

/-- **C100**: completeness of placeholder with `kzg_commitment_scheme`. For a table that satisfies the circuit,
every trapdoor, every serialisation of points and every transcript, as long as the key has as many elements as
the table has rows and no polynomial is asked for twice at one point (there are two rows, no rotations that
come to the same, two usable rows if there are lookups, and the challenge is not zero): unless a challenge of
the arguments is one of few bad ones, the prover produces a proof and the verifier accepts it. -/
theorem C100_kzg_complete (hS : PlaceholderSetup L A n fuel d c order t) (hpos : c.maxDegree ≠ 0)
    (hmqc : mqc = 0 ∨ mqc > c.maxDegree) (hdeg : DegreesFit c)
    (hlim : LookupsWithinLimit c mqc) (hcopies : CopiesHold d c.copies t.cellAt)
    (hgates : GatesHold t c.gates d.usableRows) (m : Nat)
    (hlk : c.lookups.gates ≠ [] → LookupsSatisfied t c.lookups d.usableRows m) (delta : F)
    (hn : 1 ≤ n) (hr : RotationsDistinct n d c) (hu : c.lookups.gates ≠ [] → 2 ≤ d.usableRows) :
    ∃ (parts : Nat) (badP : F → Finset F) (badT : Finset F) (badL : F → F → Finset F),
      (∀ beta, (badP beta).card ≤ order.length * 2 ^ n) ∧
      badT.card ≤ (c.lookups.optionCount * d.usableRows) * (c.lookups.optionCount * d.usableRows + 1) * m ∧
      (∀ theta beta, (badL theta beta).card ≤
        (c.lookups.inputCount + c.lookups.optionCount) * d.usableRows) ∧
      ∀ {S H G1 G2 GT : Type} [AddCommGroup G1] [Module F G1] [AddCommGroup G2] [Module F G2]
        [AddCommGroup GT] [Module F GT] [DecidableEq GT] (P : Pairing F G1 G2 GT) (dk tk : Nat) (alpha : F)
        (codec : PointCodec G1) (KT : KzgTranscript S F) (T : PlonkTranscript S F H (List UInt8)) (hash : H)
        (C : CommScheme F S (List UInt8) G1 Bool (KzgScheme F)),
        codec.Lawful → 2 ^ n ≤ dk → 2 ^ n ≤ tk → C = kzgComm L P (batchedKzgSetup P dk tk alpha) codec KT →
        ∃ pd o0, placeholderPreprocess C T L n fuel d c order delta mqc hash t C.new = some (pd, o0) ∧
          (ChallengesAvoid C T n c t d.usableRows parts
            (C.setup o0 (T.key pd.common.hash pd.common.fixedCommitment) pd.common.schemeData) badP badT badL →
          ∃ y, openingChallenge C T L n d c order pd t o0 = some y ∧
            (y ≠ 0 → ∃ proof, placeholderProve C T L n d c order pd t o0 = some proof ∧
              ∀ asserts, placeholderVerify C T L n asserts d c pd.common proof o0 = some true ∧
                ((∀ k < 2 ^ n, y ≠ L.root n ^ k) → ∀ publicInput, PublicInputOf d c n t publicInput →
                  placeholderVerifyPublic C T L n asserts d c pd.common proof o0 publicInput = some true))) := by
  obtain ⟨parts, badP, badT, badL, b1, b2, b3, b4⟩ :=
    C65_complete hS hpos hmqc hdeg hlim hcopies hgates m hlk delta
  refine ⟨parts, badP, badT, badL, b1, b2, b3, ?_⟩
  intro S H G1 G2 GT _ _ _ _ _ _ _ P dk tk alpha codec KT T hash C hcodec hdk htk hC
  have hdk0 : 0 < dk := lt_of_lt_of_le (by positivity) hdk
  have key : ∀ U : Finset F, U.card ≤ tk → _ := fun U hU =>
    b4 (kzgComm L P (batchedKzgSetup P dk tk alpha) codec KT) T hash
      (kzgComm_totalSetup (A := A) hS.lib hdk0 KT) (kzgComm_total (A := A) hS.lib hdk0 KT)
      (kzgComm_opens hS.lib hcodec KT hU hdk0) (kzgComm_complete hS.lib hcodec KT hU hdk0)
      (kzgComm_rootLaws KT _) (hasLaws_lpc A hS.small) hdk
  obtain ⟨pd, o0, hpre, h⟩ := key ∅ (by simp)
  subst hC
  refine ⟨pd, o0, hpre, fun hav => ?_⟩
  obtain ⟨y, hy, -⟩ := h trivial hav
  refine ⟨y, hy, fun hy0 => ?_⟩
  obtain ⟨pd', o0', hpre', h'⟩ := key (challengeCoset L n y) ((challengeCoset_card y).trans htk)
  rw [hpre, Option.some_inj, Prod.mk.injEq] at hpre'
  obtain ⟨rfl, rfl⟩ := hpre'
  obtain ⟨y', hy', h'⟩ := h' trivial hav
  rw [hy, Option.some_inj] at hy'
  subst hy'
  refine h' fun pts hpts k i => ?_
  have hnd := requested_nodup hS (preprocess_facts hpre) hn hr hu hy0 hpts k i
  have hsub : ∀ x ∈ lpcRequested k i pts, x ∈ challengeCoset L n y := by
    intro x hx
    obtain ⟨r, rfl⟩ := requested_rotation (columnsRotations_spec d c _ (preprocess_facts hpre).rotations).1 hpts
      k i x hx
    exact mem_challengeCoset hS.lib hS.small hy0 r
  refine ⟨hnd, ?_, hsub⟩
  rw [← List.toFinset_card_of_nodup hnd]
  exact (Finset.card_le_card fun x hx => hsub x (List.mem_toFinset.1 hx)).trans
    ((challengeCoset_card y).trans hdk)

end complete

/-! ### a run -/

/-- the order of the integers modulo 257 -/
instance exOrder257 : LinearOrder (ZMod 257) := inferInstanceAs (LinearOrder (Fin 257))

/-- the integers modulo 257 as scalars and groups -/
def exPairing257 : Pairing (ZMod 257) (ZMod 257) (ZMod 257) (ZMod 257) :=
  ⟨LinearMap.mul (ZMod 257) (ZMod 257), 1, 1, fun _ => true, fun _ => true⟩

/-- a point as two bytes -/
def exCodec257 : PointCodec (ZMod 257) :=
  ⟨fun g => [UInt8.ofNat (g.val / 256), UInt8.ofNat (g.val % 256)], fun
    | [a, b] => some ((a.toNat * 256 + b.toNat : Nat) : ZMod 257)
    | _ => none⟩

theorem exCodec257_lawful : exCodec257.Lawful := ⟨⟨2, fun _ => rfl⟩, by decide +kernel⟩

theorem exPlonkRotations : RotationsDistinct 2 exPlonkDesc exPlonkCircuit := by
  have h : ∀ i r, (r = 0 ∨ VarUsed exPlonkDesc exPlonkCircuit i r ∨
      LookupTableUsed exPlonkDesc exPlonkCircuit i r) → r = 0 ∨ r = 1 := by
    rintro i r (h | ⟨v, hv, -, rfl⟩ | ⟨-, h, -⟩)
    · exact .inl h
    · left
      revert v
      decide +kernel
    · exact .inr h
  intro i r r' h1 h2 hm
  rcases h i r h1 with rfl | rfl <;> rcases h i r' h2 with rfl | rfl <;>
    first | rfl | exact absurd hm (by decide)

/-- zero and the elements of the domain -/
def exPlonkAvoid : Finset (ZMod 257) := Finset.univ.filter fun x => x = 0 ∨ x ^ 4 = 1

/-- **C100**, a run from the preprocessing to the verdict, for every trapdoor and every way in which the
transcript of the scheme draws challenges. -/
theorem C100_example (alpha : ZMod 257) (KT : KzgTranscript Nat (ZMod 257)) :
    ∃ (T : PlonkTranscript Nat (ZMod 257) Unit (List UInt8)) (C : CommScheme (ZMod 257) Nat _ _ _ _),
    C = kzgComm (FftLib.ofRoots exRoots257) exPairing257 (batchedKzgSetup exPairing257 4 4 alpha) exCodec257 KT ∧
    ∃ pd o0 proof,
      placeholderPreprocess C T (FftLib.ofRoots exRoots257) 2 (2 ^ 64) exPlonkDesc exPlonkCircuit
        exPlonkOrder 3 4 () exPlonkTable C.new = some (pd, o0) ∧
      placeholderProve C T (FftLib.ofRoots exRoots257) 2 exPlonkDesc exPlonkCircuit exPlonkOrder pd
        exPlonkTable o0 = some proof ∧
      placeholderVerifyPublic C T (FftLib.ofRoots exRoots257) 2 true exPlonkDesc exPlonkCircuit pd.common
        proof o0 [[16]] = some true := by
  obtain ⟨parts, badP, badT, badL, b1, b2, b3, h⟩ := C100_kzg_complete (mqc := 4) exPlonkSetup
    (by decide +kernel) (by decide +kernel) exPlonkDegrees exPlonkLimit exPlonkCopies exPlonkGates 2
    (fun _ => exPlonkLookups) 3 (by norm_num) exPlonkRotations (fun _ => by decide)
  have hc : Fintype.card (ZMod 257) = 257 := ZMod.card 257
  have hX : exPlonkAvoid.card = 5 := by decide +kernel
  obtain ⟨T, t1, t2, t3⟩ := C65_challenges_exist 2 exPlonkCircuit exPlonkTable 3 parts badP badT badL
    exPlonkAvoid
    (fun b => by
      have h1 : (badP b).card ≤ 12 := b1 b
      rw [hX, hc]; omega)
    (by
      have h1 : badT.card ≤ 24 := b2
      rw [hX, hc]; omega)
    (fun th b => by
      have h1 : (badL th b).card ≤ 6 := b3 th b
      rw [hX, hc]; omega)
    (by rw [hX, hc]; norm_num) 0 Unit (List UInt8)
  obtain ⟨pd, o0, hpre, h⟩ := h exPairing257 4 4 alpha exCodec257 KT T () _ exCodec257_lawful (by norm_num)
    (by norm_num) rfl
  obtain ⟨y, hy, h⟩ := h (t3 _ _ (by rw [t2]; rfl))
  obtain ⟨st, rfl⟩ := openingChallenge_drawn hy
  have hst : (T.challenge st).1 ≠ 0 ∧ (T.challenge st).1 ^ 4 ≠ 1 := by
    have := t1 st
    simp only [exPlonkAvoid, Finset.mem_filter, Finset.mem_univ, true_and, not_or] at this
    exact this
  obtain ⟨proof, hp, hv⟩ := h hst.1
  refine ⟨T, _, rfl, pd, o0, proof, hpre, hp, (hv true).2 (fun k _ hk => hst.2 ?_) _ exPlonkPublic⟩
  rw [hk, ← pow_mul, mul_comm, pow_mul]
  have : (FftLib.ofRoots exRoots257).root 2 ^ 4 = 1 := by decide
  rw [this, one_pow]

end Crypto3Zk
