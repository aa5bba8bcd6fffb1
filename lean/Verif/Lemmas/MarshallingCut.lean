import Verif.Lemmas.MarshallingSafe

/-!
# Reading an object whose last bytes are missing
-/

set_option linter.unusedSectionVars false

namespace Crypto3Zk

variable {F G1 G2 GT : Type}

/-- the vector holds the first bytes of `bs` from offset `b` on, and ends before the last of them -/
def CutAt (data : List UInt8) (b : Nat) (bs : List UInt8) : Prop :=
  ∃ pre k, data = pre ++ bs.take k ∧ pre.length = b ∧ k < bs.length

theorem CutAt.length {data : List UInt8} {b : Nat} {bs : List UInt8} (h : CutAt data b bs) :
    data.length < b + bs.length := by
  obtain ⟨pre, k, rfl, rfl, hk⟩ := h
  simp only [List.length_append, List.length_take]
  omega

theorem CutAt.split {data : List UInt8} {b : Nat} {x y : List UInt8} (h : CutAt data b (x ++ y))
    {n : Nat} (hn : x.length = n) :
    CutAt data b x ∨ (HoldsAt data b x ∧ CutAt data (b + n) y) := by
  obtain ⟨pre, k, rfl, rfl, hk⟩ := h
  subst hn
  rw [List.length_append] at hk
  by_cases hx : k < x.length
  · exact .inl ⟨pre, k, by rw [List.take_append_of_le_length hx.le], rfl, hx⟩
  · refine .inr ⟨⟨pre, y.take (k - x.length), ?_, rfl⟩, pre ++ x, k - x.length, ?_, by simp, by omega⟩ <;>
    · rw [List.take_append, List.take_of_length_le (by omega), List.append_assoc]

theorem bind_cut {α β : Type} {x : Option α} {a : α} {f : α → Option β} (h : x = some a)
    (h2 : f a = none) : (x >>= f) = none := by
  rw [h]
  exact h2

theorem readBytes_short {data : List UInt8} {b k : Nat} (h : data.length < b + k) :
    readBytes data b k = none := if_neg (by omega)

theorem readSize_cut {data : List UInt8} {b n : Nat} (h : CutAt data b (sizeFormat n)) :
    readSize data b (b + sizeBytes) = none := by
  have := h.length
  rw [sizeFormat_length] at this
  rw [readSize, subSize_add _ _ (by decide), if_neg (by omega), readBytes_short (by simpa [sizeBytes])]
  rfl

theorem readG1_cut {K : MarshalCodec F G1 G2 GT} (hK : K.Lawful) {data : List UInt8} {b : Nat} {g : G1}
    (h : CutAt data b (K.point1 g)) : readG1 K data b = none := by
  have := h.length
  rw [hK.point1_length] at this
  rw [readG1, readBytes_short (by simpa [g1Bytes])]
  rfl

theorem readG2_cut {K : MarshalCodec F G1 G2 GT} (hK : K.Lawful) {data : List UInt8} {b : Nat} {g : G2}
    (h : CutAt data b (K.point2 g)) : readG2 K data b = none := by
  have := h.length
  rw [hK.point2_length] at this
  rw [readG2, readBytes_short (by simpa [g2Bytes])]
  rfl

theorem readFr_cut [Zero F] {K : MarshalCodec F G1 G2 GT} {data : List UInt8} {b : Nat}
    {x : F} (h : CutAt data b (leBytes 32 (K.frNat x))) : readFr K data b = none := by
  have := h.length
  rw [leBytes_length] at this
  rw [readFr, readBytes_short (by simpa [frBytes])]
  rfl

theorem not_cut_nil {data : List UInt8} {b : Nat} (h : CutAt data b []) : False := by
  obtain ⟨_, k, -, -, hk⟩ := h
  simp at hk

theorem readMany_cut {α : Type} {data : List UInt8} (item : Nat → Option α) (size : Nat)
    (enc : α → List UInt8) (hs : ∀ x, (enc x).length = size)
    (hi : ∀ x b, HoldsAt data b (enc x) → item b = some x)
    (hc : ∀ x b, CutAt data b (enc x) → item b = none) :
    ∀ (l : List α) (b : Nat), CutAt data b (l.flatMap enc) → readMany item size b l.length = none
  | [], _, h => (not_cut_nil h).elim
  | x :: l, b, h => by
    rw [List.flatMap_cons] at h
    rw [List.length_cons, readMany]
    rcases h.split (hs x) with h1 | ⟨h1, h2⟩
    · exact bind_none (hc x b h1)
    · exact bind_cut (hi x b h1) (bind_none (readMany_cut item size enc hs hi hc l _ h2))

theorem readSizes_cut {data : List UInt8} : ∀ (l : List Nat) (b : Nat), (∀ x ∈ l, x < 2 ^ 32) →
    CutAt data b (l.flatMap sizeFormat) → readSizes data b l.length = none
  | [], _, _, h => (not_cut_nil h).elim
  | x :: l, b, hs, h => by
    rw [List.flatMap_cons] at h
    rw [List.length_cons, readSizes]
    rcases h.split (n := sizeBytes) (sizeFormat_length x) with h1 | ⟨h1, h2⟩
    · exact bind_none (readSize_cut h1)
    · exact parse_step (readSize_at h1 (hs x (by simp)))
        (bind_none (readSizes_cut l _ (fun y hy => hs y (by simp [hy])) h2))

theorem readTerm_cut [Zero F] {K : MarshalCodec F G1 G2 GT} {data : List UInt8}
    {b : Nat} {t : LinearTerm F} (ht : t.index < 2 ^ 32)
    (h : CutAt data b (sizeFormat t.index ++ leBytes 32 (K.frNat t.coeff))) :
    readTerm K data b = none := by
  rw [readTerm]
  rcases h.split (n := sizeBytes) (sizeFormat_length _) with h1 | ⟨h1, h2⟩
  · exact bind_none (readSize_cut h1)
  · exact parse_step (readSize_at h1 ht) (bind_none (readFr_cut h2))

theorem readTerms_cut [Zero F] {K : MarshalCodec F G1 G2 GT} (hK : K.Lawful) {data : List UInt8} :
    ∀ (l : LinComb F) (b : Nat), (∀ t ∈ l, t.index < 2 ^ 32) →
      CutAt data b (l.flatMap fun t => sizeFormat t.index ++ leBytes 32 (K.frNat t.coeff)) →
      readTerms K data b l.length = none
  | [], _, _, h => (not_cut_nil h).elim
  | x :: l, b, hl, h => by
    rw [List.flatMap_cons] at h
    rw [List.length_cons, readTerms]
    rcases h.split (n := termBytes)
      (by simp [sizeFormat_length, leBytes_length, termBytes, sizeBytes, frBytes]) with h1 | ⟨h1, h2⟩
    · exact bind_none (readTerm_cut (hl x (by simp)) h1)
    · exact parse_step (readTerm_at hK (hl x (by simp)) h1)
        (bind_none (readTerms_cut hK l _ (fun y hy => hl y (by simp [hy])) h2))

theorem readComb_cut [Field F] (srt : List (LinearTerm F) → List (LinearTerm F))
    {K : MarshalCodec F G1 G2 GT} (hK : K.Lawful) {data : List UInt8} {lc : LinComb F} {b : Nat}
    (hl : lc.SizesFit) (h : CutAt data b (combFormat K lc)) : readComb srt K data b = none := by
  rw [combFormat] at h
  rw [readComb]
  rcases h.split (n := sizeBytes) (sizeFormat_length _) with h1 | ⟨h1, h2⟩
  · exact bind_none (readSize_cut h1)
  · exact parse_step (readSize_at h1 hl.1) (bind_none (readTerms_cut hK lc _ hl.2 h2))

/-- the number of terms of a linear combination is read before the combination itself; either fails -/
theorem comb_cut [Field F] (srt : List (LinearTerm F) → List (LinearTerm F))
    {K : MarshalCodec F G1 G2 GT} (hK : K.Lawful) {data : List UInt8} {lc : LinComb F} {b : Nat}
    (hl : lc.SizesFit) (h : CutAt data b (combFormat K lc)) {β : Type}
    {g : MStatus × Nat → Option β} {f : MStatus × Nat → MStatus × LinComb F → Option β} :
    (readSize data b (b + sizeBytes) >>= fun r => if r.1 ≠ .success then g r else
      readComb srt K data b >>= f r) = none := by
  have h' := h
  rw [combFormat] at h'
  rcases h'.split (n := sizeBytes) (sizeFormat_length _) with h1 | ⟨h1, -⟩
  · exact bind_none (readSize_cut h1)
  · exact parse_step (readSize_at h1 hl.1) (bind_none (readComb_cut srt hK hl h))

theorem readConstraint_cut [Field F] (srt : List (LinearTerm F) → List (LinearTerm F))
    {K : MarshalCodec F G1 G2 GT} (hK : K.Lawful) {data : List UInt8} {k : R1CSConstraint F} {b : Nat}
    (ha : k.a.SizesFit) (hb : k.b.SizesFit) (hc : k.c.SizesFit)
    (h : CutAt data b (constraintBody K k)) : readConstraint srt K data b = none := by
  rw [constraintBody, List.append_assoc] at h
  rw [readConstraint]
  rcases h.split (n := k.a.length * termBytes + sizeBytes) (by
    rw [combFormat_length]; simp only [termBytes, sizeBytes, frBytes]) with h1 | ⟨h1, h⟩
  · exact comb_cut srt hK ha h1
  refine parse_step (readSize_at (comb_head h1) ha.1) ?_
  refine parse_step (readComb_at srt hK ha h1) ?_
  rcases h.split (n := k.b.length * termBytes + sizeBytes) (by
    rw [combFormat_length]; simp only [termBytes, sizeBytes, frBytes]) with h2 | ⟨h2, h⟩
  · exact comb_cut srt hK hb h2
  refine parse_step (readSize_at (comb_head h2) hb.1) ?_
  refine parse_step (readComb_at srt hK hb h2) ?_
  exact comb_cut srt hK hc h

theorem readConstraints_cut [Field F] (srt : List (LinearTerm F) → List (LinearTerm F))
    {K : MarshalCodec F G1 G2 GT} (hK : K.Lawful) {data : List UInt8} :
    ∀ (l : List (R1CSConstraint F)) (st : MStatus) (b : Nat),
      (∀ k ∈ l, k.a.SizesFit ∧ k.b.SizesFit ∧ k.c.SizesFit ∧
        36 * (k.a.length + k.b.length + k.c.length) + 12 < 2 ^ 32) →
      CutAt data b
        (l.flatMap fun k => sizeFormat (constraintBody K k).length ++ constraintBody K k) →
      readConstraints srt K data st b l.length = none
  | [], _, _, _, h => (not_cut_nil h).elim
  | k :: l, st, b, hl, h => by
    rw [List.flatMap_cons, List.append_assoc] at h
    obtain ⟨ha, hb, hc, hs⟩ := hl k (by simp)
    have hlen : (constraintBody K k).length < 2 ^ 32 := by
      simp only [constraintBody, List.length_append, combFormat_length]
      omega
    rw [List.length_cons, readConstraints]
    rcases h.split (n := sizeBytes) (sizeFormat_length _) with h1 | ⟨h1, h⟩
    · exact bind_none (readSize_cut h1)
    refine bind_cut (readSize_at h1 hlen) ?_
    rcases h.split rfl with h2 | ⟨h2, h⟩
    · exact bind_none (readConstraint_cut srt hK ha hb hc h2)
    refine bind_cut (readConstraint_at srt hK ha hb hc h2) ?_
    exact bind_none (readConstraints_cut srt hK l _ _ (fun y hy => hl y (by simp [hy])) h)

theorem readSystem_cut [Field F] (srt : List (LinearTerm F) → List (LinearTerm F))
    {K : MarshalCodec F G1 G2 GT} (hK : K.Lawful) {data : List UInt8} {cs : R1CS F} {b : Nat}
    (hcs : cs.SizesFit) (h : CutAt data b (systemFormat K cs)) : readSystem srt K data b = none := by
  simp only [systemFormat, List.append_assoc] at h
  obtain ⟨hp, hx, hn, hk⟩ := hcs
  have e2 : b + sizeBytes + sizeBytes = b + 2 * sizeBytes := by simp [sizeBytes]
  have e3 : b + 2 * sizeBytes + sizeBytes = b + 3 * sizeBytes := by simp [sizeBytes]
  rw [readSystem]
  rcases h.split (n := sizeBytes) (sizeFormat_length _) with h1 | ⟨h1, h⟩
  · exact bind_none (readSize_cut h1)
  refine parse_step (readSize_at h1 hp) ?_
  rw [← e3, ← e2]
  rcases h.split (n := sizeBytes) (sizeFormat_length _) with h1 | ⟨h1, h⟩
  · exact bind_none (readSize_cut h1)
  refine parse_step (readSize_at h1 hx) ?_
  rcases h.split (n := sizeBytes) (sizeFormat_length _) with h1 | ⟨h1, h⟩
  · exact bind_none (readSize_cut h1)
  refine parse_step (readSize_at h1 hn) ?_
  exact bind_none (readConstraints_cut srt hK _ _ _ hk h)

theorem readKc_cut {K : MarshalCodec F G1 G2 GT} (hK : K.Lawful) {data : List UInt8} {b : Nat}
    {e : G2 × G1} (h : CutAt data b (K.point2 e.1 ++ K.point1 e.2)) : readKc K data b = none := by
  rw [readKc]
  rcases h.split (n := g2Bytes) (hK.point2_length _) with h1 | ⟨h1, h⟩
  · exact bind_none (readG2_cut hK h1)
  exact bind_cut (readG2_at hK h1) (bind_none (readG1_cut hK h))

theorem readKc_at {K : MarshalCodec F G1 G2 GT} (hK : K.Lawful) {data : List UInt8} {b : Nat}
    {e : G2 × G1} (h : HoldsAt data b (K.point2 e.1 ++ K.point1 e.2)) : readKc K data b = some e := by
  rw [readKc, readG2_at hK h.left]
  simp only [Option.bind_eq_bind, Option.bind_some]
  rw [readG1_at hK (h.right (k := g2Bytes) (hK.point2_length _))]
  rfl

theorem readKcVec_cut {K : MarshalCodec F G1 G2 GT} (hK : K.Lawful) {data : List UInt8} {b k : Nat}
    {v : KcVec (G2 × G1)} (hv : v.SizesFit) (hk : sizeBytes ≤ k) (hk2 : k < 2 ^ 64)
    (h : CutAt data b (kcFormat K v)) : readKcVec K data b (b + k) = none := by
  have hlen : ∀ e : G2 × G1, (K.point2 e.1 ++ K.point1 e.2).length = kcBytes := fun e => by
    simp [hK.point1_length, hK.point2_length, kcBytes, g1Bytes, g2Bytes]
  have l1 : ((v.entries.map Prod.fst).flatMap sizeFormat).length = v.entries.length * sizeBytes := by
    rw [flatMap_length_const _ 4 _ fun _ _ => sizeFormat_length _, List.length_map]; rfl
  have l2 : ((v.entries.map Prod.snd).flatMap fun e : G2 × G1 => K.point2 e.1 ++ K.point1 e.2).length =
      v.entries.length * kcBytes := by
    rw [flatMap_length_const _ kcBytes _ fun _ _ => hlen _, List.length_map]
  obtain ⟨f1, f2, f3⟩ := hv
  have f4 : ∀ x ∈ v.entries.map Prod.fst, x < 2 ^ 32 := by
    intro x hx
    obtain ⟨y, hy, rfl⟩ := List.mem_map.mp hx
    exact f3 y hy
  rw [kcFormat, sparseFormat, flatMap_map_fst,
    flatMap_map_snd v.entries fun e : G2 × G1 => K.point2 e.1 ++ K.point1 e.2] at h
  simp only [List.append_assoc] at h
  rw [readKcVec, subSize_add _ _ hk2, if_neg (by omega)]
  rcases h.split (n := sizeBytes) (sizeFormat_length _) with h1 | ⟨h1, h⟩
  · exact bind_none (readSize_cut h1)
  refine parse_step (readSize_at h1 f1) ?_
  rcases h.split l1 with h1 | ⟨h1, h⟩
  · refine bind_none ?_
    have := readSizes_cut _ _ f4 h1
    rwa [List.length_map] at this
  have r2 := readSizes_at _ _ f4 h1
  rw [List.length_map] at r2
  refine parse_step r2 ?_
  rcases h.split l2 with h1 | ⟨h1, h⟩
  · refine bind_none ?_
    have := readMany_cut (readKc K data) kcBytes _ hlen (fun x b hb => readKc_at hK hb)
      (fun x b hb => readKc_cut hK hb) _ _ h1
    rwa [List.length_map] at this
  have r3 := readMany_at (readKc K data) kcBytes (fun e : G2 × G1 => K.point2 e.1 ++ K.point1 e.2) _ _
    (fun x _ => hlen x) (fun x _ b hb => readKc_at hK hb) h1
  rw [List.length_map] at r3
  refine bind_cut r3 ?_
  exact bind_none (readSize_cut h)

theorem readPK_cut [Field F] (srt : List (LinearTerm F) → List (LinearTerm F))
    {K : MarshalCodec F G1 G2 GT} (hK : K.Lawful) {data : List UInt8} {b : Nat}
    {pk : Groth16PK F G1 G2} (ha : pk.aQuery.length < 2 ^ 32) (hb : pk.bQuery.SizesFit)
    (hb2 : (kcFormat K pk.bQuery).length < 2 ^ 32) (hh : pk.hQuery.length < 2 ^ 32)
    (hl : pk.lQuery.length < 2 ^ 32) (hcs : pk.cs.SizesFit) (h : CutAt data b (pkFormat K pk)) :
    readPK srt K data b = none := by
  have hp : ∀ (l : List G1) (b : Nat), HoldsAt data b (l.flatMap K.point1) →
      readMany (readG1 K data) g1Bytes b l.length = some l := fun l b hb =>
    readMany_at (readG1 K data) g1Bytes K.point1 l b (fun x _ => hK.point1_length x)
      (fun x _ b hb => readG1_at hK hb) hb
  have hq : ∀ (l : List G1) (b : Nat), CutAt data b (l.flatMap K.point1) →
      readMany (readG1 K data) g1Bytes b l.length = none := fun l b hb =>
    readMany_cut (readG1 K data) g1Bytes K.point1 hK.point1_length
      (fun x b hb => readG1_at hK hb) (fun x b hb => readG1_cut hK hb) l b hb
  have hpl : ∀ l : List G1, (l.flatMap K.point1).length = l.length * g1Bytes := fun l =>
    flatMap_length_const _ g1Bytes _ fun _ _ => hK.point1_length _
  have hkc : sizeBytes ≤ (kcFormat K pk.bQuery).length := by
    rw [kcFormat, sparseFormat]
    simp only [List.length_append, sizeFormat_length, sizeBytes]
    omega
  rw [pkFormat] at h
  simp only [pointsFormat, List.append_assoc] at h
  rw [readPK]
  rcases h.split (n := g1Bytes) (hK.point1_length _) with h1 | ⟨h1, h⟩
  · exact bind_none (readG1_cut hK h1)
  refine bind_cut (readG1_at hK h1) ?_
  rcases h.split (n := g1Bytes) (hK.point1_length _) with h1 | ⟨h1, h⟩
  · exact bind_none (readG1_cut hK h1)
  refine bind_cut (readG1_at hK h1) ?_
  rcases h.split (n := g2Bytes) (hK.point2_length _) with h1 | ⟨h1, h⟩
  · exact bind_none (readG2_cut hK h1)
  refine bind_cut (readG2_at hK h1) ?_
  rcases h.split (n := g1Bytes) (hK.point1_length _) with h1 | ⟨h1, h⟩
  · exact bind_none (readG1_cut hK h1)
  refine bind_cut (readG1_at hK h1) ?_
  rcases h.split (n := g2Bytes) (hK.point2_length _) with h1 | ⟨h1, h⟩
  · exact bind_none (readG2_cut hK h1)
  refine bind_cut (readG2_at hK h1) ?_
  rcases h.split (n := sizeBytes) (sizeFormat_length _) with h1 | ⟨h1, h⟩
  · exact bind_none (readSize_cut h1)
  refine bind_cut (readSize_at h1 ha) ?_
  rcases h.split (hpl _) with h1 | ⟨h1, h⟩
  · exact bind_none (hq _ _ h1)
  refine bind_cut (hp _ _ h1) ?_
  rcases h.split (n := sizeBytes) (sizeFormat_length _) with h1 | ⟨h1, h⟩
  · exact bind_none (readSize_cut h1)
  refine bind_cut (readSize_at h1 hb2) ?_
  rcases h.split rfl with h1 | ⟨h1, h⟩
  · exact bind_none (readKcVec_cut hK hb hkc (by omega) h1)
  refine bind_cut (readKcVec_at hK hb hkc (by omega) h1) ?_
  rcases h.split (n := sizeBytes) (sizeFormat_length _) with h1 | ⟨h1, h⟩
  · exact bind_none (readSize_cut h1)
  refine bind_cut (readSize_at h1 hh) ?_
  rcases h.split (hpl _) with h1 | ⟨h1, h⟩
  · exact bind_none (hq _ _ h1)
  refine bind_cut (hp _ _ h1) ?_
  rcases h.split (n := sizeBytes) (sizeFormat_length _) with h1 | ⟨h1, h⟩
  · exact bind_none (readSize_cut h1)
  refine bind_cut (readSize_at h1 hl) ?_
  rcases h.split (hpl _) with h1 | ⟨h1, h⟩
  · exact bind_none (hq _ _ h1)
  refine bind_cut (hp _ _ h1) ?_
  exact bind_none (readSystem_cut srt hK hcs h)

/-- a sparse vector at the end of the vector is not read past the end -/
theorem readSparse_cut {K : MarshalCodec F G1 G2 GT} (hK : K.Lawful) {data : List UInt8} {b e : Nat}
    {v : KcVec G1} (hv : v.SizesFit) (hb : b ≤ e) (he : e < 2 ^ 64) (hd : data.length = e)
    (h : CutAt data b (sparseFormat K.point1 v)) :
    readSparse K data b e = some (.notEnoughData, ⟨0, []⟩) := by
  have hlt := h.length
  have hl : (sparseFormat K.point1 v).length =
      sizeBytes + v.entries.length * sizeBytes + v.entries.length * g1Bytes + sizeBytes := by
    simp only [sparseFormat, List.length_append, sizeFormat_length]
    rw [flatMap_length_const _ 4 _ fun _ _ => sizeFormat_length _,
      flatMap_length_const _ 48 _ fun _ _ => hK.point1_length _]
    rfl
  rw [hl] at hlt
  rw [readSparse, subSize_sub hb he]
  split_ifs with h4
  · rfl
  simp only [sparseFormat, List.append_assoc] at h
  rcases h.split (n := sizeBytes) (sizeFormat_length _) with hc | ⟨hc, -⟩
  · have := hc.length
    rw [sizeFormat_length] at this
    simp only [sizeBytes] at h4
    omega
  refine parse_step (readSize_at hc hv.1) ?_
  dsimp only
  rw [if_pos (by omega)]
  rfl

theorem readAcc_cut [Zero G1] {K : MarshalCodec F G1 G2 GT} (hK : K.Lawful) {data : List UInt8}
    {b e : Nat} {g : G1} {v : KcVec G1} (hv : v.SizesFit) (hb : b ≤ e) (he : e < 2 ^ 64)
    (hd : data.length = e) (h : CutAt data b (K.point1 g ++ sparseFormat K.point1 v)) :
    readAcc K data b e = some (.notEnoughData, 0, ⟨0, []⟩) := by
  rw [readAcc, subSize_sub hb he]
  split_ifs with h4
  · rfl
  rcases h.split (n := g1Bytes) (hK.point1_length _) with hc | ⟨hc, h⟩
  · have := hc.length
    rw [hK.point1_length] at this
    simp only [g1Bytes] at h4
    omega
  refine Option.bind_eq_some_iff.mpr ⟨_, readG1_at hK hc, ?_⟩
  rw [readSparse_cut hK hv (by omega) he hd h]
  rfl

theorem readVK_cut [Zero G1] {K : MarshalCodec F G1 G2 GT} (hK : K.Lawful) {data : List UInt8}
    {b e : Nat} {vk : SparseVK G1 G2 GT} (hv : vk.rest.SizesFit) (hb : b ≤ e) (he : e < 2 ^ 64)
    (hd : data.length = e) (h : CutAt data b (vkFormat K vk)) :
    readVK K data b e = some (.notEnoughData, none) := by
  have hg : ((K.gtNats vk.alphaBeta).flatMap (leBytes 48)).length = gtBytes := by
    rw [flatMap_length_const _ 48 _ fun _ _ => leBytes_length _ _, hK.gt_length]; rfl
  rw [readVK, subSize_sub hb he]
  split_ifs with h4
  · rfl
  simp only [vkFormat, List.append_assoc] at h
  rcases h.split hg with hc | ⟨hc, h⟩
  · have := hc.length
    omega
  rcases h.split (n := g2Bytes) (hK.point2_length _) with hc2 | ⟨hc2, h⟩
  · have := hc2.length
    rw [hK.point2_length] at this
    simp only [g2Bytes] at h4
    omega
  rcases h.split (n := g2Bytes) (hK.point2_length _) with hc3 | ⟨hc3, h⟩
  · have := hc3.length
    rw [hK.point2_length] at this
    simp only [g2Bytes] at h4 this
    omega
  refine Option.bind_eq_some_iff.mpr ⟨_, readBytes_at hc hg, ?_⟩
  rw [hK.gtDecode]
  refine Option.bind_eq_some_iff.mpr ⟨_, readG2_at hK hc2, ?_⟩
  refine Option.bind_eq_some_iff.mpr ⟨_, readG2_at hK hc3, ?_⟩
  rw [readAcc_cut hK hv (by omega) he hd h]
  rfl

theorem readFrs_cut [Zero F] {K : MarshalCodec F G1 G2 GT} (hK : K.Lawful) {data : List UInt8} :
    ∀ (l : List F) (b : Nat), CutAt data b (l.flatMap fun x => leBytes 32 (K.frNat x)) →
      readFrs K data b l.length = none
  | [], _, h => (not_cut_nil h).elim
  | x :: l, b, h => by
    rw [List.flatMap_cons] at h
    rw [List.length_cons, readFrs]
    rcases h.split (n := frBytes) (leBytes_length _ _) with h1 | ⟨h1, h2⟩
    · exact bind_none (readFr_cut h1)
    · exact parse_step (readFr_at hK h1) (bind_none (readFrs_cut hK l _ h2))

/-- a public input whose announced length is taken as the length that is there -/
theorem readInput_cut [Zero F] {K : MarshalCodec F G1 G2 GT} (hK : K.Lawful) {data : List UInt8}
    {b e : Nat} {pi : List F} (hn : pi.length < 2 ^ 32) (he : subSize e b = (inputFormat K pi).length)
    (h : CutAt data b (inputFormat K pi)) : readInput K data b e = none := by
  rw [inputFormat, List.length_append, sizeFormat_length,
    flatMap_length_const _ 32 _ fun _ _ => leBytes_length _ _] at he
  rw [inputFormat] at h
  rw [readInput, he, if_neg (by rw [sizeBytes]; omega)]
  rcases h.split (n := sizeBytes) (sizeFormat_length _) with h1 | ⟨h1, h2⟩
  · exact bind_none (readSize_cut h1)
  refine parse_step (readSize_at h1 hn) ?_
  dsimp only
  rw [if_neg (by rw [sizeBytes, frBytes]; omega)]
  exact readFrs_cut hK pi _ h2

end Crypto3Zk
