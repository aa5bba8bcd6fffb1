import Verif.Props.PlaceholderKzg2Sound
import Verif.Props.PlaceholderKzgLookupForgery

/-!
# C108: placeholder with the second KZG scheme and lookups

`C102_kzg_lookup_forgery` for `kzg_commitment_scheme_v2`, whose verifier looks at the first commitment of every batch:
no batch of the forged proof is empty.
-/

set_option linter.unusedSectionVars false

namespace Crypto3Zk

open Polynomial

variable {F : Type} [Field F] [LinearOrder F] {L : FftLib F} {A n fuel : Nat} {d : TableDesc} {c : Circuit F}
  {order : List PlonkVar} {t : PlonkTable F} {delta : F} {mqc : Nat}
variable {G1 G2 GT : Type} [AddCommGroup G1] [Module F G1] [AddCommGroup G2] [Module F G2]
  [AddCommGroup GT] [Module F GT] [DecidableEq GT]

/-- If no part of the lookups is empty, there is an input or an option. -/
theorem lookup_columns_pos {sys : LookupSystem F} (hg : sys.gates ≠ []) (h : ∀ p ∈ sys.parts mqc, p ≠ 0) :
    sys.inputCount + sys.optionCount ≠ 0 := by
  intro h0
  have hd : (sys.gates.flatMap fun g => g.constraints.map LookupConstraint.degree).length = 0 := by
    have : (sys.gates.flatMap fun g => g.constraints.map LookupConstraint.degree).length = sys.inputCount := by
      simp [LookupSystem.inputCount, List.length_flatMap]
    omega
  have ho : (sys.tables.map fun t => t.options.length).sum = 0 := by
    have : (sys.tables.map fun t => t.options.length).sum = sys.optionCount := rfl
    omega
  unfold LookupSystem.parts lookupParts at h
  rw [List.length_eq_zero_iff.1 hd, ho] at h
  split at h
  · simp [hg] at h
  · exact h 0 (by simp) rfl

/-- **C108**, finding: copy constraints are the only thing that is in the way of the forgery here as well. For every
circuit without copy constraints, whatever its gates and its lookups are (if no part of the lookups is empty), every
table with a witness or a public input column (also one that violates the gates and the lookups), every key, every
serialisation of points and every transcript, there is a proof that the verifier accepts, unless the last challenge is
zero. It is accepted with assertions, and with the public inputs of the table. -/
theorem C108_kzg2_lookup_forgery (hS : PlaceholderSetup L A n fuel d c order t) (hcop : c.copies = [])
    (hlparts : c.lookups.gates ≠ [] → ∀ p ∈ c.lookups.parts mqc, p ≠ 0) (hn : 1 ≤ n) (hr : RotationsDistinct n d c)
    (hu : c.lookups.gates ≠ [] → 2 ≤ d.usableRows)
    (hcols : t.witnesses ≠ [] ∨ t.publicInputs ≠ [])
    {S H : Type} (P : Pairing F G1 G2 GT) (dk tk : Nat) (alpha : F)
    (codec : PointCodec G1) (hcodec : codec.Lawful) (hdk : 2 ^ n ≤ dk) (htk : 1 ≤ tk) (KT : KzgTranscript S F)
    (T : PlonkTranscript S F H (List UInt8)) (hash : H)
    (C : CommScheme F S (List UInt8) (G1 × G1) Bool (KzgScheme F))
    (hC : C = kzg2Comm L P (batchedKzgSetup P dk tk alpha) codec KT)
    (pd : PublicData F H (List UInt8) Bool) (o0 : KzgScheme F)
    (hpre : placeholderPreprocess C T L n fuel d c order delta mqc hash t C.new = some (pd, o0)) :
    ∃ st : S, (T.challenge st).1 ≠ 0 → ∃ proof, proof.challenge = (T.challenge st).1 ∧
      VariableOpened L n d c pd.common t proof ∧
      ∀ asserts, placeholderVerify C T L n asserts d c pd.common proof o0 = some true ∧
        ((∀ k < 2 ^ n, proof.challenge ≠ L.root n ^ k) → ∀ publicInput, PublicInputOf d c n t publicInput →
          placeholderVerifyPublic C T L n asserts d c pd.common proof o0 publicInput = some true) := by
  by_cases hlk : c.lookups.gates = []
  · exact C108_kzg2_forgery hS hcop hlk hn hr hcols P dk tk alpha codec hcodec hdk htk KT T hash C hC pd o0 hpre
  subst hC
  have hm := lookup_columns_pos hlk (hlparts hlk)
  have hL := hS.lib
  have hp := preprocess_facts hpre
  have hdk0 : 0 < dk := lt_of_lt_of_le (by positivity) hdk
  have hR0 := kzgComm_rootLaws (L := L) (P := P) (codec := codec) KT (batchedKzgSetup P dk tk alpha)
  refine padded_lookup_forgery (okPoints := fun y xs => KzgPoints dk (challengeCoset L n y) xs) hS hcop hlk (hlparts hlk)
    hpre _ _
    (C' := padded2Comm L P (batchedKzgSetup P dk tk alpha) codec KT FIXED_BATCH
      (zeroValues (F := F) d (pd.common.rotations.map List.length).sum)) rfl
    (kzg2Comm_total (P := P) (t := tk) (alpha := alpha) (codec := codec) hL hdk0 KT)
    (fun y => padded2Comm_opens hL hcodec KT FIXED_BATCH _ hdk0 htk)
    (fun y => padded2Comm_complete hL hcodec KT FIXED_BATCH _ hdk0 htk)
    ⟨hR0.apply, hR0.setup⟩ hdk ?_ ?_
  · intro y hy0 pts hpts k i
    have hnd := requested_nodup hS hp hn hr hu hy0 hpts k i
    have hsub : ∀ x ∈ lpcRequested k i pts, x ∈ challengeCoset L n y := by
      intro x hx
      obtain ⟨r, rfl⟩ := requested_rotation (columnsRotations_spec d c _ hp.rotations).1 hpts k i x hx
      exact mem_challengeCoset hL hS.small hy0 r
    refine ⟨hnd, ?_, hsub⟩
    rw [← List.toFinset_card_of_nodup hnd]
    exact (Finset.card_le_card fun x hx => hsub x (List.mem_toFinset.1 hx)).trans ((challengeCoset_card _).trans hdk)
  -- no batch is empty
  intro vcom l p qcom y pts v e st st' hpts hv hacc
  suffices hb : (batchesNonempty v.ev
      ((proofCommitments vcom (some l) (some p) qcom).insert FIXED_BATCH pd.common.fixedCommitment)).isSome by
    rwa [if_pos hb] at hacc
  set sorted := List.replicate (c.lookups.inputCount + c.lookups.optionCount) (List.replicate (2 ^ n) (0 : F))
    with hsorted
  set vl := List.replicate (2 ^ n) (1 : F) :: List.replicate ((c.lookups.parts mqc).length - 1)
    (List.replicate (2 ^ n) 1) with hvl
  have hpre0 := (kzg2_run_new KT _).symm.trans hp.run
  change (kzg2Comm L P (batchedKzgSetup P dk tk alpha) codec KT).run o0 _ = _ at hv
  rw [kzg2_run_from KT _ _ o0 hpre0] at hv
  obtain ⟨-, -, s3, s4, -, -, -, s8, s9, -⟩ := permPreprocess_shape hL hS.small hp.perm
  have hlen : HonestLengths n c pd.perm t [] sorted vl [[0]] :=
    ⟨s3, s4, s8, s9, hS.fits.rect, by simp, fun p h => by rw [(List.mem_replicate.1 h).2]; simp,
      fun p h => by
        rcases List.mem_cons.1 h with h | h
        · rw [h]; simp
        · rw [(List.mem_replicate.1 h).2]; simp,
      by simpa using Nat.one_le_two_pow, fun _ => rfl, fun h => absurd h hlk⟩
  have hops : ∀ op ∈ pts, (∃ k xs, op = .points k xs) ∨ ∃ k i xs, op = .pointsTo k i xs := by
    rw [verifierPoints_eq L n d c _ _ (columnsRotations_spec d c _ hp.rotations).1, Option.some_inj] at hpts
    subst hpts
    exact pointOps_ops _ _ _ _ _ _ _ _ _
  have sess := honest_session hL hS.small (hasLaws_lpc A hS.small) hdk (okPoints := fun _ => True) hlen hops
    (fun _ _ _ => trivial)
  obtain ⟨hfind, -⟩ := opened_points sess (kzg_inv hv).run
  have key : ∀ k, LpcOp.commit k ∈ fixedOps L n pd.perm t ++ honestOps L n c t [] sorted vl [[0]] →
      honestPolys L pd.perm t [] sorted vl [[0]] k ≠ [] → ((v.ev.points.getD k []).length != 0) = true := by
    intro k hk hne
    simp [OMap.getD, hfind k hk, hne]
  have hc : ∀ k, LpcOp.commit k ∈ fixedOps L n pd.perm t ++ honestOps L n c t [] sorted vl [[0]] ↔
      k = FIXED_BATCH ∨ k = VARIABLE_BATCH ∨ k = QUOTIENT_BATCH ∨ k = LOOKUP_BATCH ∨ k = PERMUTATION_BATCH := by
    intro k
    rw [List.mem_append, commit_mem_fixedOps, commit_mem_honestOps]
    simp only [hcop, hlk, ne_eq, not_true_eq_false, not_false_eq_true, or_true, true_and]
    omega
  unfold batchesNonempty
  rw [if_pos]
  · rfl
  refine List.all_eq_true.2 fun x hx => ?_
  have hk : x.1 = QUOTIENT_BATCH ∨ x.1 = FIXED_BATCH ∨ x.1 = VARIABLE_BATCH ∨ x.1 = LOOKUP_BATCH ∨
      x.1 = PERMUTATION_BATCH := by
    have := List.mem_map_of_mem (f := Prod.fst) hx
    change x.1 ∈ OMap.keys _ at this
    rw [OMap.mem_keys_insert, proofCommitments, OMap.mem_keys_insert] at this
    simp only [putCommitment, OMap.mem_keys_insert] at this
    simp only [OMap.keys, List.map_nil, List.not_mem_nil, or_false] at this
    omega
  rcases hk with h | h | h | h | h <;> rw [h]
  · refine key _ ((hc _).2 (by simp)) ?_
    simp [honestPolys, FIXED_BATCH, VARIABLE_BATCH, LOOKUP_BATCH, PERMUTATION_BATCH, QUOTIENT_BATCH]
  · refine key _ ((hc _).2 (by simp)) ?_
    simp [honestPolys, FIXED_BATCH]
  · refine key _ ((hc _).2 (by simp)) ?_
    rcases hcols with h | h <;> simp [honestPolys, VARIABLE_BATCH, h]
  · refine key _ ((hc _).2 (by simp)) ?_
    simp only [honestPolys, LOOKUP_BATCH, hsorted, ne_eq, List.map_eq_nil_iff, List.replicate_eq_nil_iff]
    exact hm
  · refine key _ ((hc _).2 (by simp)) ?_
    simp [honestPolys, PERMUTATION_BATCH, hvl]

/-- **C108**, an example with a lookup: the circuit and the table of `C102_lookup_example`, which no witness satisfies. -/
theorem C108_lookup_example :
    ∀ (alpha : ZMod 257) (S H : Type) (KT : KzgTranscript S (ZMod 257))
      (T : PlonkTranscript S (ZMod 257) H (List UInt8)) (hash : H)
      (C : CommScheme (ZMod 257) S (List UInt8) (ZMod 257 × ZMod 257) Bool (KzgScheme (ZMod 257))),
      C = kzg2Comm (FftLib.ofRoots exRoots257) exPairing257 (batchedKzgSetup exPairing257 4 1 alpha) exCodec257 KT →
      (∀ st, (T.challenge st).1 ≠ 0 ∧ (T.challenge st).1 ^ 4 ≠ 1) →
      ∃ pd o0 proof,
        placeholderPreprocess C T (FftLib.ofRoots exRoots257) 2 (2 ^ 64) exListedDesc exListedCircuit [] 3 0 hash
          (exListedTable 3 0 0 0) C.new = some (pd, o0) ∧
        placeholderVerifyPublic C T (FftLib.ofRoots exRoots257) 2 true exListedDesc exListedCircuit pd.common
          proof o0 [[9]] = some true := by
  intro alpha S H KT T hash C hC hT
  obtain ⟨_, -, hpp⟩ := C65_preprocessor_succeeds (mqc := 0) exListedSetup (by decide +kernel) (.inl rfl) 3
  obtain ⟨pd, o0, -, hpre⟩ := hpp C T hash (Has := fun f c => f.Has (FftLib.ofRoots exRoots257) 4 c) (maxLen := 4)
    (by rw [hC]; exact kzg2Comm_totalSetup exLib257_lawful (by norm_num) KT)
    (hasLaws_lpc 4 (by norm_num)) (by norm_num)
  obtain ⟨st, h⟩ := C108_kzg2_lookup_forgery exListedSetup rfl (fun _ => by decide +kernel) (by norm_num)
    exListedRotations (fun _ => by decide)
    (.inl (by simp [exListedTable])) exPairing257 4 1 alpha
    exCodec257 exCodec257_lawful (by norm_num) (by norm_num) KT T hash C hC pd o0 hpre
  obtain ⟨proof, hy, -, h⟩ := h (hT st).1
  refine ⟨pd, o0, proof, hpre, (h true).2 (fun k _ hk => (hT st).2 ?_) _ exListedPublic⟩
  rw [← hy, hk, ← pow_mul, mul_comm, pow_mul]
  have : (FftLib.ofRoots exRoots257).root 2 ^ 4 = 1 := by decide
  rw [this, one_pow]

end Crypto3Zk
