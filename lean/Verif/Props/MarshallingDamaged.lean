import Verif.Props.MarshallingExample

/-!
# C74: proving keys with a damaged constraint

The loop over the constraints of a proving key forgets the status of every constraint but the last.
-/

set_option linter.unusedSectionVars false

namespace Crypto3Zk

variable {F G1 G2 GT : Type}

theorem readFr_bad [Zero F] {K : MarshalCodec F G1 G2 GT} {data : List UInt8} {b : Nat} {bs : List UInt8}
    (h : HoldsAt data b bs) (hb : bs.length = 32) (hbad : K.frDecode bs = none) :
    readFr K data b = some (.invalidMsgData, 0) := by
  rw [readFr, readBytes_at (k := frBytes) h hb]
  simp [hbad]

/-- a constraint whose first coefficient is not that of a field element -/
theorem readConstraint_bad [Field F] (srt : List (LinearTerm F) → List (LinearTerm F))
    {K : MarshalCodec F G1 G2 GT} {data : List UInt8} {b n i : Nat} {bs rest : List UInt8}
    (hn : n + 1 < 2 ^ 32) (hi : i < 2 ^ 32) (hb : bs.length = 32) (hbad : K.frDecode bs = none)
    (h : HoldsAt data b (sizeFormat (n + 1) ++ (sizeFormat i ++ (bs ++ rest)))) :
    readConstraint srt K data b = some (.invalidMsgData, ⟨[], [], []⟩) := by
  have r1 := readSize_at h.left hn
  have h2 := h.right (k := sizeBytes) (sizeFormat_length _)
  have r2 := readSize_at h2.left hi
  have r3 := readFr_bad (h2.right (k := sizeBytes) (sizeFormat_length _)).left hb hbad
  have r4 : readTerm K data (b + sizeBytes) = some (.invalidMsgData, ⟨i, 0⟩) := by
    rw [readTerm]
    refine parse_step r2 ?_
    exact Option.bind_eq_some_iff.mpr ⟨_, r3, rfl⟩
  have r5 : readTerms K data (b + sizeBytes) (n + 1) = some (.invalidMsgData, []) := by
    rw [readTerms]
    exact Option.bind_eq_some_iff.mpr ⟨_, r4, rfl⟩
  have r6 : readComb srt K data b = some (.invalidMsgData, []) := by
    rw [readComb]
    refine parse_step r1 ?_
    exact Option.bind_eq_some_iff.mpr ⟨_, r5, rfl⟩
  rw [readConstraint]
  refine parse_step r1 ?_
  exact Option.bind_eq_some_iff.mpr ⟨_, r6, rfl⟩

/-- what the loop over the constraints returns: the constraints as they were read, and the last status -/
theorem readConstraints_items [Field F] (srt : List (LinearTerm F) → List (LinearTerm F))
    {K : MarshalCodec F G1 G2 GT} {data : List UInt8} :
    ∀ (l : List (List UInt8 × MStatus × R1CSConstraint F)) (st : MStatus) (b : Nat),
      (∀ x ∈ l, x.1.length < 2 ^ 32 ∧ ∀ b, HoldsAt data b x.1 → readConstraint srt K data b = some x.2) →
      HoldsAt data b (l.flatMap fun x => sizeFormat x.1.length ++ x.1) →
      readConstraints srt K data st b l.length =
        some ((l.map fun x => x.2.1).getLastD st, l.map fun x => x.2.2)
  | [], _, _, _, _ => rfl
  | x :: l, st, b, hl, h => by
    rw [List.flatMap_cons] at h
    obtain ⟨hs, hx⟩ := hl x (by simp)
    have r1 := readSize_at h.left.left hs
    have r2 := hx _ (h.left.right (k := sizeBytes) (sizeFormat_length _))
    have h2 := h.right (k := sizeBytes + x.1.length) (by rw [List.length_append, sizeFormat_length]; rfl)
    rw [← add_assoc] at h2
    have r3 := readConstraints_items srt l x.2.1 _ (fun y hy => hl y (by simp [hy])) h2
    rw [List.length_cons, readConstraints]
    refine Option.bind_eq_some_iff.mpr ⟨_, r1, ?_⟩
    refine Option.bind_eq_some_iff.mpr ⟨_, r2, ?_⟩
    refine Option.bind_eq_some_iff.mpr ⟨_, r3, ?_⟩
    simp only [List.map_cons, List.getLastD_cons]
    rfl

/-- the bytes of a proving key before its constraint system -/
def pkHead [Field F] (K : MarshalCodec F G1 G2 GT) (pk : Groth16PK F G1 G2) : List UInt8 :=
  K.point1 pk.alphaG1 ++ K.point1 pk.betaG1 ++ K.point2 pk.betaG2 ++ K.point1 pk.deltaG1 ++
    K.point2 pk.deltaG2 ++ pointsFormat K pk.aQuery ++
    (sizeFormat (kcFormat K pk.bQuery).length ++ kcFormat K pk.bQuery) ++
    pointsFormat K pk.hQuery ++ pointsFormat K pk.lQuery

/-- a proving key is what comes before the constraint system and whatever is read as the system -/
theorem readPK_head [Field F] (srt : List (LinearTerm F) → List (LinearTerm F))
    {K : MarshalCodec F G1 G2 GT} (hK : K.Lawful) {data : List UInt8} {b : Nat}
    {pk : Groth16PK F G1 G2} (ha : pk.aQuery.length < 2 ^ 32) (hb : pk.bQuery.SizesFit)
    (hb2 : (kcFormat K pk.bQuery).length < 2 ^ 32) (hh : pk.hQuery.length < 2 ^ 32)
    (hl : pk.lQuery.length < 2 ^ 32) {sys : List UInt8} {r : MStatus × R1CS F}
    (hsys : ∀ b, HoldsAt data b sys → readSystem srt K data b = some r)
    (h : HoldsAt data b (pkHead K pk ++ sys)) :
    readPK srt K data b = some (r.1, { pk with cs := r.2 }) := by
  have hp : ∀ (l : List G1) (b : Nat), HoldsAt data b (l.flatMap K.point1) →
      readMany (readG1 K data) g1Bytes b l.length = some l := fun l b hb =>
    readMany_at (readG1 K data) g1Bytes K.point1 l b (fun x _ => hK.point1_length x)
      (fun x _ b hb => readG1_at hK hb) hb
  have hpl : ∀ l : List G1, (l.flatMap K.point1).length = l.length * g1Bytes := fun l =>
    flatMap_length_const _ g1Bytes _ fun _ _ => hK.point1_length _
  rw [pkHead] at h
  simp only [pointsFormat, List.append_assoc] at h
  have r1 := readG1_at hK h.left
  replace h := h.right (k := g1Bytes) (hK.point1_length _)
  have r2 := readG1_at hK h.left
  replace h := h.right (k := g1Bytes) (hK.point1_length _)
  have r3 := readG2_at hK h.left
  replace h := h.right (k := g2Bytes) (hK.point2_length _)
  have r4 := readG1_at hK h.left
  replace h := h.right (k := g1Bytes) (hK.point1_length _)
  have r5 := readG2_at hK h.left
  replace h := h.right (k := g2Bytes) (hK.point2_length _)
  have r6 := readSize_at h.left ha
  replace h := h.right (k := sizeBytes) (sizeFormat_length _)
  have r7 := hp _ _ h.left
  replace h := h.right (hpl _)
  have r8 := readSize_at h.left hb2
  replace h := h.right (k := sizeBytes) (sizeFormat_length _)
  have hkc : sizeBytes ≤ (kcFormat K pk.bQuery).length := by
    rw [kcFormat, sparseFormat]
    simp only [List.length_append, sizeFormat_length, sizeBytes]
    omega
  have r9 := readKcVec_at hK hb hkc (by omega) h.left
  replace h := h.right rfl
  have r10 := readSize_at h.left hh
  replace h := h.right (k := sizeBytes) (sizeFormat_length _)
  have r11 := hp _ _ h.left
  replace h := h.right (hpl _)
  have r12 := readSize_at h.left hl
  replace h := h.right (k := sizeBytes) (sizeFormat_length _)
  have r13 := hp _ _ h.left
  replace h := h.right (hpl _)
  have r14 := hsys _ h
  clear h hp hpl hsys
  generalize (kcFormat K pk.bQuery).length = nb at *
  rw [readPK]
  refine Option.bind_eq_some_iff.mpr ⟨_, r1, ?_⟩
  refine Option.bind_eq_some_iff.mpr ⟨_, r2, ?_⟩
  refine Option.bind_eq_some_iff.mpr ⟨_, r3, ?_⟩
  refine Option.bind_eq_some_iff.mpr ⟨_, r4, ?_⟩
  refine Option.bind_eq_some_iff.mpr ⟨_, r5, ?_⟩
  refine Option.bind_eq_some_iff.mpr ⟨_, r6, ?_⟩
  refine Option.bind_eq_some_iff.mpr ⟨_, r7, ?_⟩
  refine Option.bind_eq_some_iff.mpr ⟨_, r8, ?_⟩
  refine Option.bind_eq_some_iff.mpr ⟨_, r9, ?_⟩
  refine Option.bind_eq_some_iff.mpr ⟨_, r10, ?_⟩
  refine Option.bind_eq_some_iff.mpr ⟨_, r11, ?_⟩
  refine Option.bind_eq_some_iff.mpr ⟨_, r12, ?_⟩
  refine Option.bind_eq_some_iff.mpr ⟨_, r13, ?_⟩
  exact Option.bind_eq_some_iff.mpr ⟨_, r14, rfl⟩

/-- **C74**, finding, for every proving key: whatever 32 bytes that are not those of a field element are
put in the place of the first coefficient of a constraint other than the last, the key is read with
status success. The damaged constraint has become an empty one, which every assignment satisfies; the
rest of the key is as it was. If the damaged constraint is the last one, the error is reported. -/
theorem C74_damaged_constraint [Field F] (srt : List (LinearTerm F) → List (LinearTerm F))
    (hs : IsIndexSort srt) (K : MarshalCodec F G1 G2 GT) (hK : K.Lawful) (pk : Groth16PK F G1 G2)
    (ha : pk.aQuery.length < 2 ^ 32) (hb : pk.bQuery.SizesFit)
    (hb2 : 8 + 148 * pk.bQuery.entries.length < 2 ^ 32) (hh : pk.hQuery.length < 2 ^ 32)
    (hl : pk.lQuery.length < 2 ^ 32) (hcs : pk.cs.SizesFit)
    (hc : ∀ k ∈ pk.cs.constraints, Canonical k.a ∧ Canonical k.b ∧ Canonical k.c)
    (pre post : List (R1CSConstraint F)) (k : R1CSConstraint F) (t : LinearTerm F) (ts : LinComb F)
    (hk : pk.cs.constraints = pre ++ k :: post) (hka : k.a = t :: ts) (bs : List UInt8)
    (hbs : bs.length = 32) (hbad : K.frDecode bs = none) :
    ∃ i, ((pkFormat K pk).drop i).take 32 = leBytes 32 (K.frNat t.coeff) ∧
      readPK srt K ((pkFormat K pk).take i ++ bs ++ (pkFormat K pk).drop (i + 32)) 0 =
        some (if post = [] then .invalidMsgData else .success,
          { pk with cs := { pk.cs with constraints := pre ++ ⟨[], [], []⟩ :: post } }) := by
  have hkc : (kcFormat K pk.bQuery).length < 2 ^ 32 := by
    rw [kcFormat_length K hK, kcVecBytes, sizeBytes, g1Bytes, g2Bytes]
    omega
  obtain ⟨hp, hx, hn, hfit⟩ := hcs
  have hnorm : ∀ k ∈ pk.cs.constraints, R1CSConstraint.normalize srt k = k := by
    intro k hk
    obtain ⟨h1, h2, h3⟩ := hc k hk
    rw [R1CSConstraint.normalize, ofTerms_canonical srt hs _ h1, ofTerms_canonical srt hs _ h2,
      ofTerms_canonical srt hs _ h3]
  obtain ⟨fa, -, -, hlen⟩ := hfit k (by simp [hk])
  -- the bytes around the coefficient
  obtain ⟨enc, henc⟩ : ∃ enc : R1CSConstraint F → List UInt8,
    enc = fun k => sizeFormat (constraintBody K k).length ++ constraintBody K k := ⟨_, rfl⟩
  obtain ⟨tail, htail⟩ : ∃ tail : List UInt8, tail = (ts.flatMap fun t => sizeFormat t.index ++
    leBytes 32 (K.frNat t.coeff)) ++ (combFormat K k.b ++ combFormat K k.c) := ⟨_, rfl⟩
  have hbody : constraintBody K k = sizeFormat (ts.length + 1) ++ (sizeFormat t.index ++
      (leBytes 32 (K.frNat t.coeff) ++ tail)) := by
    rw [constraintBody, combFormat, hka, htail]
    simp only [List.length_cons, List.flatMap_cons, List.append_assoc]
  obtain ⟨X, hX⟩ : ∃ X : List UInt8, X = pkHead K pk ++ (sizeFormat pk.cs.primaryInputSize ++
    (sizeFormat pk.cs.auxiliaryInputSize ++ (sizeFormat pk.cs.constraints.length ++
      (pre.flatMap enc ++ (sizeFormat (constraintBody K k).length ++
        (sizeFormat (ts.length + 1) ++ sizeFormat t.index)))))) := ⟨_, rfl⟩
  obtain ⟨Y, hY⟩ : ∃ Y : List UInt8, Y = tail ++ post.flatMap enc := ⟨_, rfl⟩
  have hall : pkFormat K pk = X ++ (leBytes 32 (K.frNat t.coeff) ++ Y) := by
    have e : (pk.cs.constraints.flatMap fun k => sizeFormat (constraintBody K k).length ++
        constraintBody K k) = pre.flatMap enc ++ (enc k ++ post.flatMap enc) := by
      rw [hk, List.flatMap_append, List.flatMap_cons, ← henc]
      simp only [henc]
    have ek : enc k = sizeFormat (constraintBody K k).length ++ (sizeFormat (ts.length + 1) ++
        (sizeFormat t.index ++ (leBytes 32 (K.frNat t.coeff) ++ tail))) := by
      rw [henc]
      dsimp only
      rw [← hbody]
    have e2 : pkFormat K pk = pkHead K pk ++ systemFormat K pk.cs := rfl
    rw [e2, systemFormat, e, ek, hX, hY]
    simp only [List.append_assoc]
  have hll : (leBytes 32 (K.frNat t.coeff)).length = 32 := leBytes_length _ _
  refine ⟨X.length, ?_, ?_⟩
  · rw [hall, List.drop_left, List.take_append_of_le_length hll.ge, List.take_of_length_le hll.le]
  have hdata : (pkFormat K pk).take X.length ++ bs ++ (pkFormat K pk).drop (X.length + 32) =
      X ++ (bs ++ Y) := by
    rw [hall, List.take_left, ← List.drop_drop, List.drop_left, List.drop_append, hll, Nat.sub_self,
      List.drop_zero, List.drop_eq_nil_of_le hll.le, List.nil_append, List.append_assoc]
  rw [hdata]
  -- what the loop sees
  obtain ⟨bad, hbadb⟩ : ∃ bad : List UInt8, bad = sizeFormat (ts.length + 1) ++ (sizeFormat t.index ++
    (bs ++ tail)) := ⟨_, rfl⟩
  have hbl : bad.length = (constraintBody K k).length := by
    rw [hbadb, hbody]
    simp only [List.length_append, hbs, hll]
  obtain ⟨items, hitems⟩ : ∃ items : List (List UInt8 × MStatus × R1CSConstraint F),
    items = (pre.map fun k => (constraintBody K k, MStatus.success, k)) ++
      (bad, MStatus.invalidMsgData, (⟨[], [], []⟩ : R1CSConstraint F)) ::
      (post.map fun k => (constraintBody K k, MStatus.success, k)) := ⟨_, rfl⟩
  have hil : items.length = pk.cs.constraints.length := by
    rw [hitems, hk]
    simp
  obtain ⟨sys, hsys⟩ : ∃ sys : List UInt8, sys = sizeFormat pk.cs.primaryInputSize ++
    (sizeFormat pk.cs.auxiliaryInputSize ++ (sizeFormat pk.cs.constraints.length ++
      items.flatMap fun x => sizeFormat x.1.length ++ x.1)) := ⟨_, rfl⟩
  have hXY : X ++ (bs ++ Y) = pkHead K pk ++ sys := by
    rw [hsys, hX, hY, hitems, List.flatMap_append, List.flatMap_cons, List.flatMap_map, List.flatMap_map,
      hbl, hbadb, henc]
    simp only [List.append_assoc]
  have hgood : ∀ data, ∀ k ∈ pk.cs.constraints, (constraintBody K k).length < 2 ^ 32 ∧
      ∀ b, HoldsAt data b (constraintBody K k) →
        readConstraint srt K data b = some (MStatus.success, k) := by
    intro data k hk
    obtain ⟨f1, f2, f3, f4⟩ := hfit k hk
    refine ⟨?_, fun b hb => ?_⟩
    · simp only [constraintBody, List.length_append, combFormat_length]
      omega
    · rw [readConstraint_at srt hK f1 f2 f3 hb, hnorm k hk]
  rw [hXY]
  have hread : ∀ b, HoldsAt (pkHead K pk ++ sys) b sys → readSystem srt K (pkHead K pk ++ sys) b =
      some (if post = [] then .invalidMsgData else .success,
        { pk.cs with constraints := pre ++ ⟨[], [], []⟩ :: post }) := by
    intro b h
    generalize pkHead K pk ++ sys = data at h
    rw [hsys] at h
    have s1 := readSize_at h.left hp
    have h2 := h.right (k := sizeBytes) (sizeFormat_length _)
    have s2 := readSize_at h2.left hx
    have h3 := h2.right (k := sizeBytes) (sizeFormat_length _)
    have s3 := readSize_at h3.left hn
    have h4 := h3.right (k := sizeBytes) (sizeFormat_length _)
    have e2 : b + sizeBytes + sizeBytes = b + 2 * sizeBytes := by simp [sizeBytes]
    have e3 : b + 2 * sizeBytes + sizeBytes = b + 3 * sizeBytes := by simp [sizeBytes]
    rw [e2] at s2
    rw [e2, e3] at s3
    rw [e2, e3] at h4
    have s4 := readConstraints_items srt (K := K) items .success _ (by
      intro x hx
      rw [hitems] at hx
      simp only [List.mem_append, List.mem_cons, List.mem_map] at hx
      rcases hx with ⟨k', hk', rfl⟩ | rfl | ⟨k', hk', rfl⟩
      · exact hgood data k' (by simp [hk, hk'])
      · refine ⟨?_, fun b hb => ?_⟩
        · dsimp only
          rw [hbl]
          exact (hgood data k (by simp [hk])).1
        · dsimp only at hb
          rw [hbadb] at hb
          refine readConstraint_bad srt ?_ (fa.2 t (by simp [hka])) hbs hbad hb
          have := fa.1
          rw [hka] at this
          simpa using this
      · exact hgood data k' (by simp [hk, hk'])) h4
    rw [hil] at s4
    rw [readSystem]
    refine parse_step s1 ?_
    refine parse_step s2 ?_
    refine parse_step s3 ?_
    refine Option.bind_eq_some_iff.mpr ⟨_, s4, ?_⟩
    have hm : (items.map fun x => x.2.2) = pre ++ ⟨[], [], []⟩ :: post := by
      rw [hitems]
      simp [Function.comp_def]
    have hst : (items.map fun x => x.2.1).getLastD .success =
        if post = [] then .invalidMsgData else .success := by
      rw [hitems]
      simp only [List.map_append, List.map_cons, List.map_map, Function.comp_def]
      rcases List.eq_nil_or_concat post with rfl | ⟨l, x, rfl⟩
      · simp [List.getLastD_eq_getLast?]
      · simp [List.getLastD_eq_getLast?, List.getLast?_append, List.getLast?_cons]
    rw [hm, hst]
    rfl
  exact readPK_head srt hK ha hb hkc hh hl hread ⟨[], [], by simp, rfl⟩

/-- the hypotheses are met by the key of the round trip and its first constraint -/
example : ∃ i, ((pkFormat exMarshalCodec exMarshalPK).drop i).take 32 = leBytes 32 1 ∧
    readPK exMarshalSort exMarshalCodec ((pkFormat exMarshalCodec exMarshalPK).take i ++
      List.replicate 32 255 ++ (pkFormat exMarshalCodec exMarshalPK).drop (i + 32)) 0 =
      some (.success, { exMarshalPK with
        cs := ⟨1, 1, [⟨[], [], []⟩, ⟨[⟨2, 1⟩], [⟨0, 1⟩], [⟨0, 3⟩]⟩]⟩ }) :=
  C74_damaged_constraint exMarshalSort insertionSort_isIndexSort exMarshalCodec exMarshalCodec_lawful
    exMarshalPK (by decide) (by simp [KcVec.SizesFit, exMarshalPK]) (by decide) (by decide) (by decide)
    (by simp [R1CS.SizesFit, LinComb.SizesFit, exMarshalPK]) (by decide)
    [] [⟨[⟨2, 1⟩], [⟨0, 1⟩], [⟨0, 3⟩]⟩] ⟨[⟨1, 1⟩], [⟨1, 1⟩], [⟨2, 1⟩]⟩ ⟨1, 1⟩ [] rfl rfl
    (List.replicate 32 255) (by simp) (by decide +kernel)

end Crypto3Zk
