import Verif.Lemmas.MarshallingSafe
import Verif.Props.LinearCombination
import Mathlib.Data.ZMod.Basic
import Mathlib.Algebra.Field.ZMod
import Mathlib.Tactic.NormNum.Prime

/-!
# C73, C74: serialised Groth16 objects

C73: every proof, public input, verification key and proving key is written in the documented format,
inside the buffer, and read back as it was. C74: reading bytes that somebody else supplies stays inside
them — true for proofs, public inputs and verification keys, false for the combined verifier input and
for proving keys.
-/

set_option linter.unusedSectionVars false

namespace Crypto3Zk

variable {F G1 G2 GT : Type}

/-! ## C73: what is written -/

/-- **C73.** A proof takes exactly its 192 bytes. -/
theorem C73_proof_written (K : MarshalCodec F G1 G2 GT) (hK : K.Lawful) (π : Groth16Proof G1 G2) :
    serializeProof K π = some (proofFormat K π) ∧ (proofFormat K π).length = 192 := by
  have hl : (proofFormat K π).length = 192 := by
    simp [proofFormat, hK.point1_length, hK.point2_length]
  have henc : Encodes (fun w => putPoint (K.point1 π.gA) w >>= fun w => putPoint (K.point2 π.gB) w >>=
      fun w => putPoint (K.point1 π.gC) w) (proofFormat K π) := by
    have := encodes_bind (encodes_point (K.point1 π.gA)) (encodes_bind (encodes_point (K.point2 π.gB))
      (encodes_point (K.point1 π.gC)))
    rw [← List.append_assoc] at this
    exact this
  have := encodes_run henc 192 hl.le
  rw [hl, Nat.sub_self, List.replicate_zero, List.append_nil] at this
  refine ⟨?_, hl⟩
  rw [← this]
  simp only [Option.bind_eq_bind, Option.bind_assoc]
  rfl

/-- **C73.** A public input takes four bytes and 32 for every element. -/
theorem C73_input_written (K : MarshalCodec F G1 G2 GT) (hK : K.Lawful) (pi : List F) :
    serializeInput K pi = some (inputFormat K pi) ∧
      (inputFormat K pi).length = 4 + 32 * pi.length := by
  have hl : (inputFormat K pi).length = 4 + pi.length * 32 := by
    rw [inputFormat, List.length_append, sizeFormat_length,
      flatMap_length_const _ 32 _ fun _ _ => leBytes_length _ _]
  have henc : Encodes (fun w => putSize pi.length w >>= fun w =>
      pi.foldlM (fun w x => putField (K.frNat x) frBytes w) w) (inputFormat K pi) :=
    encodes_bind (encodes_size _) (encodes_fold (fun x w => putField (K.frNat x) frBytes w) _ pi
      fun x _ => encodes_field _ _ (by decide) (hK.fr_lt x))
  have := encodes_run henc (4 + pi.length * 32) hl.le
  rw [hl, Nat.sub_self, List.replicate_zero, List.append_nil] at this
  refine ⟨?_, by omega⟩
  rw [← this]
  simp only [Option.bind_eq_bind, Option.bind_assoc]
  rfl

theorem vkFormat_length (K : MarshalCodec F G1 G2 GT) (hK : K.Lawful) (vk : SparseVK G1 G2 GT) :
    (vkFormat K vk).length = 824 + 52 * vk.rest.entries.length := by
  simp only [vkFormat, sparseFormat, List.length_append, sizeFormat_length, hK.point1_length,
    hK.point2_length]
  rw [flatMap_length_const _ 48 _ fun _ _ => leBytes_length _ _, hK.gt_length,
    flatMap_length_const _ 4 _ fun _ _ => sizeFormat_length _,
    flatMap_length_const _ 48 _ fun _ _ => hK.point1_length _]
  ring

/-- **C73.** A verification key is written without leaving the buffer; 52 zero bytes follow, because
the first element is counted as an entry of the sparse vector. -/
theorem C73_vk_written (K : MarshalCodec F G1 G2 GT) (hK : K.Lawful) (vk : SparseVK G1 G2 GT) :
    serializeVK K vk = some (vkFormat K vk ++ List.replicate 52 0) := by
  have henc : Encodes (fun w => putGT (K.gtNats vk.alphaBeta) w >>= fun w =>
      putPoint (K.point2 vk.gammaG2) w >>= fun w => putPoint (K.point2 vk.deltaG2) w >>= fun w =>
      putPoint (K.point1 vk.first) w >>= fun w => putSparse K vk.rest w) (vkFormat K vk) := by
    have := encodes_bind (encodes_gt _ (hK.gt_lt vk.alphaBeta)) (encodes_bind
      (encodes_point (K.point2 vk.gammaG2)) (encodes_bind (encodes_point (K.point2 vk.deltaG2))
      (encodes_bind (encodes_point (K.point1 vk.first)) (encodes_sparse K vk.rest))))
    simp only [vkFormat, List.append_assoc] at this ⊢
    exact this
  have hl := vkFormat_length K hK vk
  have := encodes_run henc (876 + 52 * vk.rest.entries.length) (by omega)
  rw [show 876 + 52 * vk.rest.entries.length - (vkFormat K vk).length = 52 by omega] at this
  rw [← this]
  simp only [Option.bind_eq_bind, Option.bind_assoc]
  rw [serializeVK]
  rw [show fpBytes * 12 + g2Bytes + g2Bytes + ((2 + (1 + vk.rest.entries.length)) * sizeBytes +
    (1 + vk.rest.entries.length) * g1Bytes + g1Bytes) = 876 + 52 * vk.rest.entries.length by
      simp only [fpBytes, g2Bytes, g1Bytes, sizeBytes]; ring]
  rfl

/-- **C73.** A proving key is written without leaving the buffer, whatever its sizes; zero bytes
follow, up to twice the size of its points, indices and terms. -/
theorem C73_pk_written [Field F] (K : MarshalCodec F G1 G2 GT) (hK : K.Lawful)
    (pk : Groth16PK F G1 G2) :
    ∃ n, serializePK K pk = some (pkFormat K pk ++ List.replicate n 0) ∧
      (pkFormat K pk).length + n = 2 * (352 + 48 * (pk.aQuery.length + pk.hQuery.length + pk.lQuery.length) +
        148 * pk.bQuery.entries.length +
        (pk.cs.constraints.map fun k => 36 * (k.a.length + k.b.length + k.c.length) + 12).sum) := by
  have henc : Encodes (fun w => putPoint (K.point1 pk.alphaG1) w >>= fun w =>
      putPoint (K.point1 pk.betaG1) w >>= fun w => putPoint (K.point2 pk.betaG2) w >>= fun w =>
      putPoint (K.point1 pk.deltaG1) w >>= fun w => putPoint (K.point2 pk.deltaG2) w >>= fun w =>
      putPoints K pk.aQuery w >>= fun w => putKcVec K pk.bQuery w >>= fun w =>
      putPoints K pk.hQuery w >>= fun w => putPoints K pk.lQuery w >>= fun w =>
      putSystem K pk.cs w) (pkFormat K pk) := by
    have := encodes_bind (encodes_point (K.point1 pk.alphaG1)) (encodes_bind
      (encodes_point (K.point1 pk.betaG1)) (encodes_bind (encodes_point (K.point2 pk.betaG2))
      (encodes_bind (encodes_point (K.point1 pk.deltaG1)) (encodes_bind
      (encodes_point (K.point2 pk.deltaG2)) (encodes_bind (encodes_points K pk.aQuery) (encodes_bind
      (encodes_kcVec K hK pk.bQuery) (encodes_bind (encodes_points K pk.hQuery) (encodes_bind
      (encodes_points K pk.lQuery) (encodes_system K hK pk.cs)))))))))
    simp only [pkFormat, List.append_assoc] at this ⊢
    exact this
  have hsum : ∀ l : List (R1CSConstraint F),
      (l.flatMap fun k => sizeFormat (constraintBody K k).length ++ constraintBody K k).length ≤
        (l.map constraintBytes).sum * 2 := by
    intro l
    induction l with
    | nil => simp
    | cons k l ih =>
      rw [List.flatMap_cons, List.length_append, List.length_append, sizeFormat_length,
        constraintBody_length, List.map_cons, List.sum_cons]
      have : 4 ≤ constraintBytes k := by simp only [constraintBytes, sizeBytes]; omega
      omega
  have hl : (pkFormat K pk).length ≤ provingKeyBytes pk := by
    have h1 := hsum pk.cs.constraints
    simp only [pkFormat, pointsFormat, systemFormat, List.length_append, sizeFormat_length,
      hK.point1_length, hK.point2_length]
    rw [kcFormat_length K hK, flatMap_length_const _ 48 pk.aQuery fun _ _ => hK.point1_length _,
      flatMap_length_const _ 48 pk.hQuery fun _ _ => hK.point1_length _,
      flatMap_length_const _ 48 pk.lQuery fun _ _ => hK.point1_length _]
    simp only [provingKeyBytes, g1Bytes, g2Bytes, sizeBytes]
    omega
  refine ⟨provingKeyBytes pk - (pkFormat K pk).length, ?_, ?_⟩
  · rw [← encodes_run henc _ hl]
    simp only [Option.bind_eq_bind, Option.bind_assoc]
    rfl
  · have hc : (constraintBytes : R1CSConstraint F → Nat) =
        fun k => 36 * (k.a.length + k.b.length + k.c.length) + 12 := by
      funext k
      simp only [constraintBytes, sizeBytes, frBytes]
      ring
    rw [Nat.add_sub_cancel' hl, provingKeyBytes, hc]
    simp only [kcVecBytes, g1Bytes, g2Bytes, sizeBytes]
    ring

/-! ## C73: reading back -/

theorem holdsAt_zero (bs post : List UInt8) : HoldsAt (bs ++ post) 0 bs :=
  ⟨[], post, by simp, rfl⟩

/-- **C73.** A serialised proof is read back as it was. -/
theorem C73_proof_round_trip (K : MarshalCodec F G1 G2 GT) (hK : K.Lawful) (π : Groth16Proof G1 G2) :
    ∃ data, serializeProof K π = some data ∧
      readProof K data 0 data.length = some (.success, some π) := by
  obtain ⟨h1, h2⟩ := C73_proof_written K hK π
  refine ⟨_, h1, readProof_at hK ?_ ?_⟩
  · rw [h2]
    decide
  · exact ⟨[], [], by simp, rfl⟩

/-- **C73.** A serialised public input of fewer than `2 ^ 32` elements is read back as it was. -/
theorem C73_input_round_trip [Zero F] (K : MarshalCodec F G1 G2 GT) (hK : K.Lawful) (pi : List F)
    (hn : pi.length < 2 ^ 32) :
    ∃ data, serializeInput K pi = some data ∧
      readInput K data 0 data.length = some (.success, pi) := by
  obtain ⟨h1, h2⟩ := C73_input_written K hK pi
  refine ⟨_, h1, readInput_at hK hn ?_ ⟨[], [], by simp, rfl⟩⟩
  rw [subSize_sub (by omega) (by omega)]
  rfl

/-- **C73.** The bound is needed: only the low 32 bits of the number of elements are written. -/
theorem C73_large_input_lost [Zero F] (K : MarshalCodec F G1 G2 GT) (hK : K.Lawful) (pi : List F)
    (hn : pi.length = 2 ^ 32) :
    ∃ data, serializeInput K pi = some data ∧
      readInput K data 0 data.length = some (.success, []) := by
  obtain ⟨h1, h2⟩ := C73_input_written K hK pi
  refine ⟨_, h1, ?_⟩
  have h0 : HoldsAt (inputFormat K pi) 0 (sizeFormat 0) := by
    have : HoldsAt (inputFormat K pi) 0 (sizeFormat pi.length ++ pi.flatMap fun x =>
      leBytes 32 (K.frNat x)) := ⟨[], [], by simp [inputFormat], rfl⟩
    have := this.left
    rw [hn] at this
    exact this
  rw [readInput, subSize_sub (by omega) (by omega), if_neg (by rw [sizeBytes]; omega)]
  refine parse_step (readSize_at h0 (by norm_num)) ?_
  dsimp only
  rw [if_neg (by rw [sizeBytes, frBytes]; omega)]
  rfl

/-- **C73.** A serialised verification key whose numbers fit in four bytes is read back as it was. -/
theorem C73_vk_round_trip [Zero G1] (K : MarshalCodec F G1 G2 GT) (hK : K.Lawful)
    (vk : SparseVK G1 G2 GT) (hv : vk.rest.SizesFit) :
    ∃ data, serializeVK K vk = some data ∧
      readVK K data 0 data.length = some (.success, some vk) := by
  have h2 := vkFormat_length K hK vk
  have h3 := hv.1
  refine ⟨_, C73_vk_written K hK vk, readVK_at hK hv ?_ ?_ (holdsAt_zero _ _)⟩
  · rw [List.length_append, List.length_replicate]
    omega
  · rw [List.length_append]
    omega

/-- **C73.** A serialised proof, public input and verification key one after the other are read back
by the function that reads all three. -/
theorem C73_verifier_input_round_trip [Zero F] [Zero G1] (K : MarshalCodec F G1 G2 GT) (hK : K.Lawful)
    (π : Groth16Proof G1 G2) (pi : List F) (vk : SparseVK G1 G2 GT) (hn : pi.length < 2 ^ 32)
    (hv : vk.rest.SizesFit) :
    ∃ d1 d2 d3, serializeProof K π = some d1 ∧ serializeInput K pi = some d2 ∧
      serializeVK K vk = some d3 ∧
      readVerifierInput K (d1 ++ d2 ++ d3) 0 (d1 ++ d2 ++ d3).length =
        some (.success, some (vk, pi, π)) := by
  obtain ⟨hp1, hp2⟩ := C73_proof_written K hK π
  obtain ⟨hi1, hi2⟩ := C73_input_written K hK pi
  have hv2 := vkFormat_length K hK vk
  have hv3 := hv.1
  refine ⟨_, _, _, hp1, hi1, C73_vk_written K hK vk, ?_⟩
  set data := proofFormat K π ++ inputFormat K pi ++ (vkFormat K vk ++ List.replicate 52 0) with hdata
  have hlen : data.length = 192 + (4 + 32 * pi.length) + (824 + 52 * vk.rest.entries.length) + 52 := by
    rw [hdata, List.length_append, List.length_append, List.length_append, List.length_replicate, hp2,
      hi2, hv2]
    ring
  have hall : HoldsAt data 0 (proofFormat K π ++ inputFormat K pi ++ vkFormat K vk) :=
    ⟨[], List.replicate 52 0, by simp [hdata], rfl⟩
  have e0 : g1Bytes + g2Bytes + g1Bytes = 192 := rfl
  have a1 := hall.left.left
  have a2 := hall.left.right (k := g1Bytes + g2Bytes + g1Bytes) hp2
  have a3 := hall.right (k := g1Bytes + g2Bytes + g1Bytes + (sizeBytes + frBytes * pi.length)) (by
    rw [List.length_append, hp2, hi2]
    rfl)
  have a2s : HoldsAt data (0 + (g1Bytes + g2Bytes + g1Bytes)) (sizeFormat pi.length) := by
    rw [inputFormat] at a2
    exact a2.left
  have r1 := readProof_at (e := 0 + (g1Bytes + g2Bytes + g1Bytes)) hK
    (by rw [subSize_add _ _ (by decide)]) a1
  have r2 := readSize_at a2s hn
  have r3 := readInput_at (e := 0 + (g1Bytes + g2Bytes + g1Bytes) + (sizeBytes + frBytes * pi.length))
    hK hn (by
      rw [subSize_add _ _ (by rw [sizeBytes, frBytes]; omega), hi2]
      rfl) a2
  rw [← Nat.add_assoc] at a3
  have r4 := readVK_at (e := data.length) hK hv (by omega) (by rw [hv2, sizeBytes, frBytes]; omega) a3
  rw [readVerifierInput]
  dsimp only
  rw [subSize_sub (by omega) (by omega), if_neg (by rw [hlen, e0]; omega)]
  refine parse_step r1 ?_
  refine Option.bind_eq_some_iff.mpr ⟨_, r2, ?_⟩
  rw [if_neg (by simp)]
  refine parse_step r3 ?_
  exact parse_step r4 rfl

/-- **C73.** A serialised proving key whose numbers fit in four bytes and whose linear combinations are
in the form the constructors produce is read back as it was. -/
theorem C73_pk_round_trip [Field F] (srt : List (LinearTerm F) → List (LinearTerm F))
    (hs : IsIndexSort srt) (K : MarshalCodec F G1 G2 GT) (hK : K.Lawful) (pk : Groth16PK F G1 G2)
    (ha : pk.aQuery.length < 2 ^ 32) (hb : pk.bQuery.SizesFit)
    (hb2 : 8 + 148 * pk.bQuery.entries.length < 2 ^ 32) (hh : pk.hQuery.length < 2 ^ 32)
    (hl : pk.lQuery.length < 2 ^ 32) (hcs : pk.cs.SizesFit)
    (hc : ∀ k ∈ pk.cs.constraints, Canonical k.a ∧ Canonical k.b ∧ Canonical k.c) :
    ∃ data, serializePK K pk = some data ∧ readPK srt K data 0 = some (.success, pk) := by
  obtain ⟨n, hn, -⟩ := C73_pk_written K hK pk
  refine ⟨_, hn, ?_⟩
  have hkc : (kcFormat K pk.bQuery).length < 2 ^ 32 := by
    rw [kcFormat_length K hK, kcVecBytes, sizeBytes, g1Bytes, g2Bytes]
    omega
  rw [readPK_at srt hK ha hb hkc hh hl hcs (holdsAt_zero _ _)]
  have hmap : pk.cs.constraints.map (R1CSConstraint.normalize srt) = pk.cs.constraints := by
    conv_rhs => rw [← List.map_id pk.cs.constraints]
    refine List.map_congr_left fun k hk => ?_
    obtain ⟨h1, h2, h3⟩ := hc k hk
    rw [R1CSConstraint.normalize, ofTerms_canonical srt hs _ h1, ofTerms_canonical srt hs _ h2,
      ofTerms_canonical srt hs _ h3]
    rfl
  rw [hmap]

/-- **C73.** Whatever the form of the linear combinations, everything but the constraint system is read
back as it was, and the constraint system read back has the same sizes and judges every assignment as
the original does. -/
theorem C73_pk_round_trip_meaning [Field F] [DecidableEq F]
    (srt : List (LinearTerm F) → List (LinearTerm F))
    (hs : IsIndexSort srt) (K : MarshalCodec F G1 G2 GT) (hK : K.Lawful) (pk : Groth16PK F G1 G2)
    (ha : pk.aQuery.length < 2 ^ 32) (hb : pk.bQuery.SizesFit)
    (hb2 : 8 + 148 * pk.bQuery.entries.length < 2 ^ 32) (hh : pk.hQuery.length < 2 ^ 32)
    (hl : pk.lQuery.length < 2 ^ 32) (hcs : pk.cs.SizesFit) :
    ∃ data cs', serializePK K pk = some data ∧
      readPK srt K data 0 = some (.success, { pk with cs := cs' }) ∧
      cs'.primaryInputSize = pk.cs.primaryInputSize ∧
      cs'.auxiliaryInputSize = pk.cs.auxiliaryInputSize ∧
      cs'.constraints.length = pk.cs.constraints.length ∧
      ∀ primary aux, R1CS.isSatisfied cs' primary aux = R1CS.isSatisfied pk.cs primary aux := by
  obtain ⟨n, hn, -⟩ := C73_pk_written K hK pk
  have hkc : (kcFormat K pk.bQuery).length < 2 ^ 32 := by
    rw [kcFormat_length K hK, kcVecBytes, sizeBytes, g1Bytes, g2Bytes]
    omega
  refine ⟨_, _, hn, readPK_at srt hK ha hb hkc hh hl hcs (holdsAt_zero _ _), rfl, rfl, by simp, ?_⟩
  intro primary aux
  have : ∀ l : List (R1CSConstraint F),
      R1CS.satisfiedLoop (primary ++ aux) (l.map (R1CSConstraint.normalize srt)) =
        R1CS.satisfiedLoop (primary ++ aux) l := by
    intro l
    induction l with
    | nil => rfl
    | cons k l ih =>
      rw [List.map_cons, R1CS.satisfiedLoop, R1CS.satisfiedLoop, ih]
      simp only [R1CSConstraint.normalize, (C02_ofTerms srt hs k.a).2.2,
        (C02_ofTerms srt hs k.b).2.2, (C02_ofTerms srt hs k.c).2.2]
  exact this _

/-! ## C74: bytes supplied by somebody else -/

/-- **C74.** Reading a proof from any bytes stays inside them. -/
theorem C74_proof_safe (K : MarshalCodec F G1 G2 GT) (data : List UInt8)
    (hd : data.length < 2 ^ 64) : ∃ r, readProof K data 0 data.length = some r :=
  readProof_inside K (Nat.zero_le _) le_rfl hd

/-- **C74.** Reading a public input from any bytes stays inside them. -/
theorem C74_input_safe [Zero F] (K : MarshalCodec F G1 G2 GT) (data : List UInt8)
    (hd : data.length < 2 ^ 64) : ∃ r, readInput K data 0 data.length = some r :=
  readInput_inside K (Nat.zero_le _) le_rfl hd

/-- **C74.** Reading a verification key from any bytes stays inside them. -/
theorem C74_vk_safe [Zero G1] (K : MarshalCodec F G1 G2 GT) (data : List UInt8)
    (hd : data.length < 2 ^ 64) : ∃ r, readVK K data 0 data.length = some r :=
  readVK_inside K (Nat.zero_le _) le_rfl hd

/-- **C74**, partial: reading the combined verifier input stays inside the bytes if there are enough
of them for the number of public inputs they announce. Missing: the other byte strings, for which it is
false (`C74_verifier_input_unsafe`). -/
theorem C74_verifier_input_safe_partial [Zero F] [Zero G1] (K : MarshalCodec F G1 G2 GT)
    (data : List UInt8) (hd : data.length < 2 ^ 64) (count : Nat)
    (h1 : 196 + 32 * count ≤ data.length)
    (h2 : readSize data 192 196 = some (.success, count)) :
    ∃ r, readVerifierInput K data 0 data.length = some r := by
  have e0 : g1Bytes + g2Bytes + g1Bytes = 192 := rfl
  obtain ⟨⟨st1, π⟩, r1⟩ := readProof_inside K (data := data) (b := 0)
    (e := 0 + (g1Bytes + g2Bytes + g1Bytes)) (by omega) (by omega) hd
  obtain ⟨⟨st3, pi⟩, r3⟩ := readInput_inside K (data := data)
    (b := 0 + (g1Bytes + g2Bytes + g1Bytes))
    (e := 0 + (g1Bytes + g2Bytes + g1Bytes) + (sizeBytes + frBytes * count)) (by omega)
    (by rw [sizeBytes, frBytes]; omega) hd
  obtain ⟨⟨st4, vk⟩, r4⟩ := readVK_inside K (data := data)
    (b := 0 + (g1Bytes + g2Bytes + g1Bytes) + (sizeBytes + frBytes * count))
    (e := data.length) (by rw [sizeBytes, frBytes]; omega) le_rfl hd
  have r2 : readSize data (0 + (g1Bytes + g2Bytes + g1Bytes))
    (0 + (g1Bytes + g2Bytes + g1Bytes) + sizeBytes) = some (.success, count) := h2
  rw [readVerifierInput]
  dsimp only
  rw [subSize_sub (by omega) (by omega), if_neg (by omega)]
  refine parse_ok r1 fun _ => ?_
  refine bind_ok r2 ?_
  rw [if_neg (by simp)]
  refine parse_ok r3 fun _ => ?_
  refine parse_ok r4 fun _ => ?_
  cases vk <;> cases π <;> exact ⟨_, rfl⟩

/-- **C74** fails for the combined verifier input: bytes that end within the four after the proof are
read past their end, although their number is compared with the length of a proof. -/
theorem C74_verifier_input_unsafe [Zero F] [Zero G1] (K : MarshalCodec F G1 G2 GT) (data : List UInt8)
    (h1 : 192 ≤ data.length) (h2 : data.length < 196) :
    readVerifierInput K data 0 data.length = none := by
  have e0 : g1Bytes + g2Bytes + g1Bytes = 192 := rfl
  have e1 : g1Bytes = 48 := rfl
  have e2 : g2Bytes = 96 := rfl
  obtain ⟨x, hx⟩ := readG1_inside K (data := data) (b := 0) (by omega)
  obtain ⟨y, hy⟩ := readG2_inside K (data := data) (b := 0 + g1Bytes) (by omega)
  obtain ⟨z, hz⟩ := readG1_inside K (data := data) (b := 0 + g1Bytes + g2Bytes) (by omega)
  have r1 : readProof K data 0 (0 + (g1Bytes + g2Bytes + g1Bytes)) =
      some (.success, some ⟨x, y, z⟩) := by
    rw [readProof, subSize_add _ _ (by decide), if_neg (by omega), hx, hy, hz]
    rfl
  have r2 : readSize data (0 + (g1Bytes + g2Bytes + g1Bytes))
      (0 + (g1Bytes + g2Bytes + g1Bytes) + sizeBytes) = none := by
    by_contra hne
    obtain ⟨r, hr⟩ := Option.ne_none_iff_exists'.mp hne
    have := readSize_bound hr
    omega
  rw [readVerifierInput]
  dsimp only
  rw [subSize_sub (by omega) (by omega), if_neg (by omega)]
  refine parse_step r1 ?_
  exact bind_none r2

/-- **C74** fails for proving keys: their length is never looked at, so fewer than 340 bytes are read
past their end whatever they are. -/
theorem C74_proving_key_unsafe [Field F] (srt : List (LinearTerm F) → List (LinearTerm F))
    (K : MarshalCodec F G1 G2 GT) (data : List UInt8) (h : data.length < 340) :
    readPK srt K data 0 = none := by
  by_contra hne
  obtain ⟨r, hr⟩ := Option.ne_none_iff_exists'.mp hne
  rw [readPK] at hr
  obtain ⟨_, -, hr⟩ := Option.bind_eq_some_iff.mp hr
  obtain ⟨_, -, hr⟩ := Option.bind_eq_some_iff.mp hr
  obtain ⟨_, -, hr⟩ := Option.bind_eq_some_iff.mp hr
  obtain ⟨_, -, hr⟩ := Option.bind_eq_some_iff.mp hr
  obtain ⟨_, -, hr⟩ := Option.bind_eq_some_iff.mp hr
  obtain ⟨_, h6, -⟩ := Option.bind_eq_some_iff.mp hr
  have h7 := readSize_bound h6
  have : 0 + g1Bytes + g1Bytes + g2Bytes + g1Bytes + g2Bytes = 336 := rfl
  omega

end Crypto3Zk
