import Verif.Lemmas.MarshallingCut
import Verif.Props.MarshallingExample

/-!
# C74: serialised objects that arrive incomplete or with more behind them
-/

set_option linter.unusedSectionVars false

namespace Crypto3Zk

variable {F G1 G2 GT : Type}

/-- **C74.** If bytes are missing at the end of a serialised proof, that is what is reported. -/
theorem C74_truncated_proof (K : MarshalCodec F G1 G2 GT) (hK : K.Lawful) (π : Groth16Proof G1 G2) :
    ∃ data, serializeProof K π = some data ∧ ∀ m < data.length,
      readProof K (data.take m) 0 (data.take m).length = some (.notEnoughData, none) := by
  obtain ⟨h1, h2⟩ := C73_proof_written K hK π
  refine ⟨_, h1, fun m hm => ?_⟩
  rw [List.length_take, min_eq_left hm.le, readProof, subSize_sub (by omega) (by omega),
    if_pos (by simp only [g1Bytes, g2Bytes]; omega)]
  rfl

/-- **C74.** The same for a public input of fewer than `2 ^ 32` elements. -/
theorem C74_truncated_input [Zero F] (K : MarshalCodec F G1 G2 GT) (hK : K.Lawful) (pi : List F)
    (hn : pi.length < 2 ^ 32) :
    ∃ data, serializeInput K pi = some data ∧ ∀ m < data.length,
      readInput K (data.take m) 0 (data.take m).length = some (.notEnoughData, []) := by
  obtain ⟨h1, h2⟩ := C73_input_written K hK pi
  refine ⟨_, h1, fun m hm => ?_⟩
  have hcut : CutAt ((inputFormat K pi).take m) 0 (inputFormat K pi) := ⟨[], m, rfl, rfl, hm⟩
  rw [List.length_take, min_eq_left hm.le, readInput, subSize_sub (by omega) (by omega)]
  rw [h2] at hm
  split_ifs with h4
  · rfl
  rw [inputFormat] at hcut
  rcases hcut.split (n := sizeBytes) (sizeFormat_length _) with hc | ⟨hc, -⟩
  · have := hc.length
    rw [sizeFormat_length, ← inputFormat, List.length_take, h2, min_eq_left hm.le] at this
    simp only [sizeBytes] at h4
    omega
  refine parse_step (readSize_at hc hn) ?_
  dsimp only
  rw [if_pos (by simp only [sizeBytes, frBytes]; omega)]
  rfl

/-- **C74.** The same for a verification key whose numbers fit in four bytes, if bytes of its format
are missing; with the whole format present the key is read back. -/
theorem C74_truncated_vk [Zero G1] (K : MarshalCodec F G1 G2 GT) (hK : K.Lawful)
    (vk : SparseVK G1 G2 GT) (hv : vk.rest.SizesFit) :
    ∃ data, serializeVK K vk = some data ∧ ∀ m ≤ data.length,
      readVK K (data.take m) 0 (data.take m).length =
        if 824 + 52 * vk.rest.entries.length ≤ m then some (.success, some vk)
        else some (.notEnoughData, none) := by
  have hlen := vkFormat_length K hK vk
  have hv1 := hv.1
  refine ⟨_, C73_vk_written K hK vk, fun m hm => ?_⟩
  have hm' := hm
  rw [List.length_append, List.length_replicate, hlen] at hm'
  rw [List.length_take, min_eq_left hm]
  split_ifs with h
  · rw [List.take_append, List.take_of_length_le (by omega)]
    exact readVK_at hK hv (by omega) (by omega) (holdsAt_zero _ _)
  rw [List.take_append_of_le_length (by omega)]
  have hcut : CutAt ((vkFormat K vk).take m) 0 (vkFormat K vk) := ⟨[], m, rfl, rfl, by omega⟩
  have hd : ((vkFormat K vk).take m).length = m := by
    rw [List.length_take, min_eq_left (by omega)]
  generalize (vkFormat K vk).take m = data at hcut hd
  exact readVK_cut hK hv (by omega) (by omega) hd (by simpa using hcut)

/-- **C74**, exactly when reading the first `m` bytes of a serialised verifier input is safe: missing
bytes are reported if they are missing from the proof or from the verification key, and lead past the
end of the vector if the proof is complete and bytes of the public input are missing. -/
theorem C74_truncated_verifier_input [Zero F] [Zero G1] (K : MarshalCodec F G1 G2 GT) (hK : K.Lawful)
    (π : Groth16Proof G1 G2) (pi : List F) (vk : SparseVK G1 G2 GT) (hn : pi.length < 2 ^ 32)
    (hv : vk.rest.SizesFit) :
    ∃ d1 d2 d3, serializeProof K π = some d1 ∧ serializeInput K pi = some d2 ∧
      serializeVK K vk = some d3 ∧ ∀ m ≤ (d1 ++ d2 ++ d3).length,
      readVerifierInput K ((d1 ++ d2 ++ d3).take m) 0 ((d1 ++ d2 ++ d3).take m).length =
        if m < 192 then some (.notEnoughData, none)
        else if m < 196 + 32 * pi.length then none
        else if m < 1020 + 32 * pi.length + 52 * vk.rest.entries.length then some (.notEnoughData, none)
        else some (.success, some (vk, pi, π)) := by
  obtain ⟨w1, l1⟩ := C73_proof_written K hK π
  obtain ⟨w2, l2⟩ := C73_input_written K hK pi
  have l3 := vkFormat_length K hK vk
  have hv1 := hv.1
  refine ⟨_, _, _, w1, w2, C73_vk_written K hK vk, fun m hm => ?_⟩
  have hm' := hm
  simp only [List.length_append, List.length_replicate, l1, l2, l3] at hm'
  rw [List.length_take, min_eq_left hm, List.append_assoc]
  by_cases c1 : m < 192
  · rw [if_pos c1, readVerifierInput]
    dsimp only
    rw [subSize_sub (by omega) (by omega), if_pos (by simp only [g1Bytes, g2Bytes]; omega)]
    rfl
  rw [if_neg c1, List.take_append, List.take_of_length_le (by omega), l1]
  obtain ⟨rest, hrest⟩ : ∃ rest, rest = (inputFormat K pi ++ (vkFormat K vk ++
    List.replicate 52 0)).take (m - 192) := ⟨_, rfl⟩
  rw [← hrest]
  have hp : HoldsAt (proofFormat K π ++ rest) 0 (proofFormat K π) := holdsAt_zero _ _
  have r1 : readProof K (proofFormat K π ++ rest) 0 (0 + (g1Bytes + g2Bytes + g1Bytes)) =
      some (.success, some π) :=
    readProof_at hK (by rw [subSize_add _ _ (by decide)]) hp
  rw [readVerifierInput]
  dsimp only
  rw [subSize_sub (by omega) (by omega), if_neg (by simp only [g1Bytes, g2Bytes]; omega)]
  refine parse_step r1 ?_
  have e0 : 0 + (g1Bytes + g2Bytes + g1Bytes) = 192 := rfl
  rw [e0]
  by_cases c2 : m < 196 + 32 * pi.length
  · rw [if_pos c2]
    have hcut : CutAt (proofFormat K π ++ rest) 192 (inputFormat K pi) :=
      ⟨proofFormat K π, m - 192, by
        rw [hrest, List.take_append_of_le_length (by omega)], l1, by omega⟩
    have hcut' := hcut
    rw [inputFormat] at hcut'
    rcases hcut'.split (n := sizeBytes) (sizeFormat_length _) with h1 | ⟨h1, -⟩
    · exact bind_none (readSize_cut h1)
    refine parse_step (readSize_at h1 hn) ?_
    refine bind_none (readInput_cut hK hn ?_ hcut)
    rw [subSize_add _ _ (by simp only [sizeBytes, frBytes]; omega), l2]
    rfl
  rw [if_neg c2]
  rw [List.take_append, List.take_of_length_le (by omega), l2] at hrest
  obtain ⟨last, hlast⟩ : ∃ last, last = (vkFormat K vk ++ List.replicate 52 0).take
    (m - 192 - (4 + 32 * pi.length)) := ⟨_, rfl⟩
  rw [← hlast] at hrest
  have hi : HoldsAt (proofFormat K π ++ rest) 192 (inputFormat K pi) :=
    ⟨proofFormat K π, last, by rw [hrest, List.append_assoc], l1⟩
  have r2 := readSize_at (n := pi.length) (by
    have := hi
    rw [inputFormat] at this
    exact this.left) hn
  have e1 : 192 + (sizeBytes + frBytes * pi.length) = 196 + 32 * pi.length := by
    simp only [sizeBytes, frBytes]
    omega
  have r3 : readInput K (proofFormat K π ++ rest) 192 (196 + 32 * pi.length) =
      some (.success, pi) :=
    readInput_at hK hn (by rw [subSize_sub (by omega) (by omega), l2]; omega) hi
  refine parse_step r2 ?_
  dsimp only
  rw [e1]
  refine parse_step r3 ?_
  have hd : (proofFormat K π ++ rest).length = m := by
    rw [hrest, hlast, List.length_append, List.length_append, List.length_take, List.length_append,
      List.length_replicate, l1, l2, l3]
    omega
  by_cases c3 : m < 1020 + 32 * pi.length + 52 * vk.rest.entries.length
  · rw [if_pos c3]
    have hcut : CutAt (proofFormat K π ++ rest) (196 + 32 * pi.length) (vkFormat K vk) :=
      ⟨proofFormat K π ++ inputFormat K pi, m - 192 - (4 + 32 * pi.length), by
        rw [hrest, hlast, List.take_append_of_le_length (by omega), List.append_assoc],
        by rw [List.length_append, l1, l2]; omega, by omega⟩
    rw [readVK_cut hK hv (by omega) (by omega) hd hcut]
    rfl
  rw [if_neg c3]
  have hh : HoldsAt (proofFormat K π ++ rest) (196 + 32 * pi.length) (vkFormat K vk) := by
    rw [List.take_append, List.take_of_length_le (by omega)] at hlast
    exact ⟨proofFormat K π ++ inputFormat K pi, _, by
      rw [hrest, hlast]; simp only [List.append_assoc]; rfl,
      by rw [List.length_append, l1, l2]; omega⟩
  rw [readVK_at hK hv (by omega) (by omega) hh]
  rfl

/-- **C74**, exactly when reading the first `m` bytes of a serialised proving key is safe: what the
serialiser returns starts with the key's format and is filled with zeros; with the whole format present
the key is read back, and if one byte of it or more is missing the reader goes past the end, it never
reports that there are not enough data. -/
theorem C74_truncated_proving_key [Field F] (srt : List (LinearTerm F) → List (LinearTerm F))
    (hs : IsIndexSort srt) (K : MarshalCodec F G1 G2 GT) (hK : K.Lawful) (pk : Groth16PK F G1 G2)
    (ha : pk.aQuery.length < 2 ^ 32) (hb : pk.bQuery.SizesFit)
    (hb2 : 8 + 148 * pk.bQuery.entries.length < 2 ^ 32) (hh : pk.hQuery.length < 2 ^ 32)
    (hl : pk.lQuery.length < 2 ^ 32) (hcs : pk.cs.SizesFit)
    (hc : ∀ k ∈ pk.cs.constraints, Canonical k.a ∧ Canonical k.b ∧ Canonical k.c) :
    ∃ data, serializePK K pk = some data ∧ ∀ m, readPK srt K (data.take m) 0 =
      if (pkFormat K pk).length ≤ m then some (.success, pk) else none := by
  obtain ⟨n, hn, -⟩ := C73_pk_written K hK pk
  refine ⟨_, hn, fun m => ?_⟩
  have hkc : (kcFormat K pk.bQuery).length < 2 ^ 32 := by
    rw [kcFormat_length K hK, kcVecBytes, sizeBytes, g1Bytes, g2Bytes]
    omega
  split_ifs with hm
  · rw [List.take_append, List.take_of_length_le hm]
    rw [readPK_at srt hK ha hb hkc hh hl hcs (holdsAt_zero _ _)]
    have hmap : pk.cs.constraints.map (R1CSConstraint.normalize srt) = pk.cs.constraints := by
      conv_rhs => rw [← List.map_id pk.cs.constraints]
      refine List.map_congr_left fun k hk => ?_
      obtain ⟨h1, h2, h3⟩ := hc k hk
      simp [R1CSConstraint.normalize, ofTerms_canonical srt hs, h1, h2, h3]
    rw [hmap]
  · rw [List.take_append_of_le_length (by omega)]
    exact readPK_cut srt hK ha hb hkc hh hl hcs ⟨[], m, rfl, rfl, by omega⟩

/-- **C74.** Bytes that follow a serialised object are not noticed: whatever they are, the object is
read as without them. So there are many byte strings for the same proof, input or key. -/
theorem C74_trailing_bytes [Zero F] [Zero G1] (K : MarshalCodec F G1 G2 GT) (hK : K.Lawful)
    (π : Groth16Proof G1 G2) (pi : List F) (vk : SparseVK G1 G2 GT) (hn : pi.length < 2 ^ 32)
    (hv : vk.rest.SizesFit) :
    ∃ d1 d2 d3, serializeProof K π = some d1 ∧ serializeInput K pi = some d2 ∧
      serializeVK K vk = some d3 ∧ ∀ more : List UInt8, more.length < 2 ^ 63 →
        readProof K (d1 ++ more) 0 (d1 ++ more).length = some (.success, some π) ∧
        readInput K (d2 ++ more) 0 (d2 ++ more).length = some (.success, pi) ∧
        readVK K (d3 ++ more) 0 (d3 ++ more).length = some (.success, some vk) := by
  obtain ⟨w1, l1⟩ := C73_proof_written K hK π
  obtain ⟨w2, l2⟩ := C73_input_written K hK pi
  have l3 := vkFormat_length K hK vk
  have hv1 := hv.1
  refine ⟨_, _, _, w1, w2, C73_vk_written K hK vk, fun more hmore => ⟨?_, ?_, ?_⟩⟩
  · refine readProof_at hK ?_ (holdsAt_zero _ _)
    rw [List.length_append, l1, subSize_sub (by omega) (by omega)]
    simp only [g1Bytes, g2Bytes]
    omega
  · have h : HoldsAt (inputFormat K pi ++ more) 0 (inputFormat K pi) := holdsAt_zero _ _
    have hlen : (inputFormat K pi ++ more).length = 4 + 32 * pi.length + more.length := by
      rw [List.length_append, l2]
    rw [hlen]
    generalize inputFormat K pi ++ more = data at h
    rw [inputFormat] at h
    rw [readInput, subSize_sub (by omega) (by omega), if_neg (by rw [sizeBytes]; omega)]
    refine parse_step (readSize_at h.left hn) ?_
    dsimp only
    rw [if_neg (by rw [sizeBytes, frBytes]; omega)]
    exact readFrs_at hK pi _ (h.right (k := sizeBytes) (sizeFormat_length _))
  · rw [List.append_assoc]
    refine readVK_at hK hv ?_ ?_ (holdsAt_zero _ _)
    · simp only [List.length_append, List.length_replicate]
      omega
    · simp only [List.length_append, List.length_replicate]
      omega

/-- **C74.** Nor are bytes after a proof, public input and verification key that are read together. -/
theorem C74_trailing_verifier_input [Zero F] [Zero G1] (K : MarshalCodec F G1 G2 GT) (hK : K.Lawful)
    (π : Groth16Proof G1 G2) (pi : List F) (vk : SparseVK G1 G2 GT) (hn : pi.length < 2 ^ 32)
    (hv : vk.rest.SizesFit) :
    ∃ d1 d2 d3, serializeProof K π = some d1 ∧ serializeInput K pi = some d2 ∧
      serializeVK K vk = some d3 ∧ ∀ more : List UInt8, more.length < 2 ^ 63 →
      readVerifierInput K (d1 ++ d2 ++ d3 ++ more) 0 (d1 ++ d2 ++ d3 ++ more).length =
        some (.success, some (vk, pi, π)) := by
  obtain ⟨hp1, hp2⟩ := C73_proof_written K hK π
  obtain ⟨hi1, hi2⟩ := C73_input_written K hK pi
  have hv2 := vkFormat_length K hK vk
  have hv3 := hv.1
  refine ⟨_, _, _, hp1, hi1, C73_vk_written K hK vk, fun more hmore => ?_⟩
  obtain ⟨data, hdata⟩ : ∃ data, data = proofFormat K π ++ inputFormat K pi ++
    (vkFormat K vk ++ List.replicate 52 0) ++ more := ⟨_, rfl⟩
  rw [← hdata]
  have hlen : data.length =
      192 + (4 + 32 * pi.length) + (824 + 52 * vk.rest.entries.length) + 52 + more.length := by
    rw [hdata, List.length_append, List.length_append, List.length_append, List.length_append,
      List.length_replicate, hp2, hi2, hv2]
    ring
  have hall : HoldsAt data 0 (proofFormat K π ++ inputFormat K pi ++ vkFormat K vk) :=
    ⟨[], List.replicate 52 0 ++ more, by simp [hdata], rfl⟩
  have e0 : g1Bytes + g2Bytes + g1Bytes = 192 := rfl
  have a1 := hall.left.left
  have a2 := hall.left.right (k := g1Bytes + g2Bytes + g1Bytes) hp2
  have a3 := hall.right (k := g1Bytes + g2Bytes + g1Bytes + (sizeBytes + frBytes * pi.length)) (by
    rw [List.length_append, hp2, hi2]
    rfl)
  have a2s : HoldsAt data (0 + (g1Bytes + g2Bytes + g1Bytes)) (sizeFormat pi.length) := by
    rw [inputFormat] at a2
    exact a2.left
  have r1 := readProof_at (e := 0 + (g1Bytes + g2Bytes + g1Bytes)) hK
    (by rw [subSize_add _ _ (by decide)]) a1
  have r2 := readSize_at a2s hn
  have r3 := readInput_at (e := 0 + (g1Bytes + g2Bytes + g1Bytes) + (sizeBytes + frBytes * pi.length))
    hK hn (by
      rw [subSize_add _ _ (by rw [sizeBytes, frBytes]; omega), hi2]
      rfl) a2
  rw [← Nat.add_assoc] at a3
  have r4 := readVK_at (e := data.length) hK hv (by omega) (by rw [hv2, sizeBytes, frBytes]; omega) a3
  rw [readVerifierInput]
  dsimp only
  rw [subSize_sub (by omega) (by omega), if_neg (by rw [hlen, e0]; omega)]
  refine parse_step r1 ?_
  refine Option.bind_eq_some_iff.mpr ⟨_, r2, ?_⟩
  rw [if_neg (by simp)]
  refine parse_step r3 ?_
  exact parse_step r4 rfl

/-- **C74.** Nor are bytes after a proving key. -/
theorem C74_trailing_proving_key [Field F] (srt : List (LinearTerm F) → List (LinearTerm F))
    (hs : IsIndexSort srt) (K : MarshalCodec F G1 G2 GT) (hK : K.Lawful) (pk : Groth16PK F G1 G2)
    (ha : pk.aQuery.length < 2 ^ 32) (hb : pk.bQuery.SizesFit)
    (hb2 : 8 + 148 * pk.bQuery.entries.length < 2 ^ 32) (hh : pk.hQuery.length < 2 ^ 32)
    (hl : pk.lQuery.length < 2 ^ 32) (hcs : pk.cs.SizesFit)
    (hc : ∀ k ∈ pk.cs.constraints, Canonical k.a ∧ Canonical k.b ∧ Canonical k.c) :
    ∃ data, serializePK K pk = some data ∧
      ∀ more : List UInt8, readPK srt K (data ++ more) 0 = some (.success, pk) := by
  obtain ⟨data, hd, hr⟩ := C73_pk_round_trip srt hs K hK pk ha hb hb2 hh hl hcs hc
  refine ⟨data, hd, fun more => ?_⟩
  obtain ⟨n, hn, -⟩ := C73_pk_written K hK pk
  have hkc : (kcFormat K pk.bQuery).length < 2 ^ 32 := by
    rw [kcFormat_length K hK, kcVecBytes, sizeBytes, g1Bytes, g2Bytes]
    omega
  obtain rfl := Option.some.inj (hd.symm.trans hn)
  rw [readPK_at srt hK ha hb hkc hh hl hcs (holdsAt_zero _ _)] at hr
  rw [List.append_assoc, readPK_at srt hK ha hb hkc hh hl hcs (holdsAt_zero _ _)]
  exact hr

/-- a proof with a byte after it -/
example : ∃ d, serializeProof exMarshalCodec ⟨1, 2, 3⟩ = some d ∧
    readProof exMarshalCodec (d ++ [7]) 0 (d ++ [7]).length = some (.success, some ⟨1, 2, 3⟩) := by
  obtain ⟨d1, _, _, h1, -, -, h⟩ := C74_trailing_bytes exMarshalCodec exMarshalCodec_lawful ⟨1, 2, 3⟩
    [4, 5] ⟨1, 2, 3, 4, ⟨2, [(0, 5), (1, 6)]⟩⟩ (by decide) (by simp [KcVec.SizesFit])
  exact ⟨d1, h1, (h [7] (by norm_num)).1⟩

/-- the hypotheses are met by a key for two constraints, whose format takes 1108 bytes: the last of
them is missed -/
theorem C74_truncated_proving_key_example :
    ∃ data, serializePK exMarshalCodec exMarshalPK = some data ∧
      readPK exMarshalSort exMarshalCodec (data.take (pkFormat exMarshalCodec exMarshalPK).length) 0 =
        some (.success, exMarshalPK) ∧
      readPK exMarshalSort exMarshalCodec (data.take ((pkFormat exMarshalCodec exMarshalPK).length - 1)) 0 =
        none := by
  obtain ⟨data, h1, h2⟩ := C74_truncated_proving_key exMarshalSort insertionSort_isIndexSort
    exMarshalCodec exMarshalCodec_lawful exMarshalPK (by decide)
    (by simp [KcVec.SizesFit, exMarshalPK]) (by decide) (by decide) (by decide)
    (by simp [R1CS.SizesFit, LinComb.SizesFit, exMarshalPK]) (by decide)
  refine ⟨data, h1, ?_, ?_⟩
  · rw [h2, if_pos le_rfl]
  · rw [h2, if_neg]
    have : 0 < (pkFormat exMarshalCodec exMarshalPK).length := by decide +kernel
    omega

/-- a verification key of three input elements, whose format takes 980 bytes, without the last of them -/
example : ∃ data, serializeVK exMarshalCodec ⟨1, 2, 3, 4, ⟨3, [(0, 5), (1, 6), (2, 1)]⟩⟩ = some data ∧
    readVK exMarshalCodec (data.take 979) 0 (data.take 979).length = some (.notEnoughData, none) := by
  obtain ⟨data, h1, h2⟩ := C74_truncated_vk exMarshalCodec exMarshalCodec_lawful
    ⟨1, 2, 3, 4, ⟨3, [(0, 5), (1, 6), (2, 1)]⟩⟩ (by simp [KcVec.SizesFit])
  refine ⟨data, h1, ?_⟩
  rw [C73_vk_written exMarshalCodec exMarshalCodec_lawful, Option.some.injEq] at h1
  rw [h2 979, if_neg (by decide)]
  rw [← h1, List.length_append, vkFormat_length _ exMarshalCodec_lawful]
  simp

/-- a verifier input of two elements that breaks off in the second of them -/
example : ∃ d1 d2 d3, serializeProof exMarshalCodec ⟨1, 2, 3⟩ = some d1 ∧
    serializeInput exMarshalCodec [4, 5] = some d2 ∧
    serializeVK exMarshalCodec ⟨1, 2, 3, 4, ⟨2, [(0, 5), (1, 6)]⟩⟩ = some d3 ∧
    readVerifierInput exMarshalCodec ((d1 ++ d2 ++ d3).take 250) 0
      ((d1 ++ d2 ++ d3).take 250).length = none := by
  obtain ⟨d1, d2, d3, h1, h2, h3, h⟩ := C74_truncated_verifier_input exMarshalCodec
    exMarshalCodec_lawful ⟨1, 2, 3⟩ [4, 5] ⟨1, 2, 3, 4, ⟨2, [(0, 5), (1, 6)]⟩⟩ (by decide)
    (by simp [KcVec.SizesFit])
  refine ⟨d1, d2, d3, h1, h2, h3, ?_⟩
  have l3 := h3
  rw [C73_vk_written exMarshalCodec exMarshalCodec_lawful, Option.some.injEq] at l3
  rw [h 250, if_neg (by decide), if_pos (by decide)]
  rw [← l3]
  simp only [List.length_append, vkFormat_length _ exMarshalCodec_lawful]
  omega

/-- a proving key for two constraints with three bytes after it -/
example : ∃ data, serializePK exMarshalCodec exMarshalPK = some data ∧
    readPK exMarshalSort exMarshalCodec (data ++ [1, 2, 3]) 0 = some (.success, exMarshalPK) := by
  obtain ⟨data, h1, h2⟩ := C74_trailing_proving_key exMarshalSort insertionSort_isIndexSort
    exMarshalCodec exMarshalCodec_lawful exMarshalPK (by decide)
    (by simp [KcVec.SizesFit, exMarshalPK]) (by decide) (by decide) (by decide)
    (by simp [R1CS.SizesFit, LinComb.SizesFit, exMarshalPK]) (by decide)
  exact ⟨data, h1, h2 _⟩

/-- a verifier input with a byte after it -/
example : ∃ d, readVerifierInput exMarshalCodec (d ++ [7]) 0 (d ++ [7]).length =
    some (.success, some (⟨1, 2, 3, 4, ⟨2, [(0, 5), (1, 6)]⟩⟩, [4, 5], ⟨1, 2, 3⟩)) := by
  obtain ⟨d1, d2, d3, -, -, -, h⟩ := C74_trailing_verifier_input exMarshalCodec
    exMarshalCodec_lawful ⟨1, 2, 3⟩ [4, 5] ⟨1, 2, 3, 4, ⟨2, [(0, 5), (1, 6)]⟩⟩ (by decide)
    (by simp [KcVec.SizesFit])
  exact ⟨d1 ++ d2 ++ d3, h [7] (by norm_num)⟩

example : (pkFormat exMarshalCodec exMarshalPK).length = 1108 := by decide +kernel

end Crypto3Zk
