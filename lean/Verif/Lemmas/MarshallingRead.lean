import Verif.Lemmas.Marshalling

/-!
# Reading back what was written
-/

set_option linter.unusedSectionVars false

namespace Crypto3Zk

variable {F G1 G2 GT : Type}

/-- the vector holds `bs` from offset `b` on -/
def HoldsAt (data : List UInt8) (b : Nat) (bs : List UInt8) : Prop :=
  ∃ pre post, data = pre ++ bs ++ post ∧ pre.length = b

theorem HoldsAt.left {data : List UInt8} {b : Nat} {x y : List UInt8} (h : HoldsAt data b (x ++ y)) :
    HoldsAt data b x := by
  obtain ⟨pre, post, h1, h2⟩ := h
  exact ⟨pre, y ++ post, by simp [h1], h2⟩

theorem HoldsAt.right {data : List UInt8} {b : Nat} {x y : List UInt8} (h : HoldsAt data b (x ++ y))
    {k : Nat} (hk : x.length = k) : HoldsAt data (b + k) y := by
  obtain ⟨pre, post, h1, h2⟩ := h
  exact ⟨pre ++ x, post, by simp [h1], by simp [h2, hk]⟩

theorem HoldsAt.length {data : List UInt8} {b : Nat} {x : List UInt8} (h : HoldsAt data b x) :
    b + x.length ≤ data.length := by
  obtain ⟨pre, post, h1, h2⟩ := h
  simp [h1, ← h2]

theorem readBytes_at {data : List UInt8} {b k : Nat} {bs : List UInt8} (h : HoldsAt data b bs)
    (hk : bs.length = k) : readBytes data b k = some bs := by
  rw [readBytes, if_pos (by have := h.length; omega)]
  obtain ⟨pre, post, rfl, rfl⟩ := h
  subst hk
  simp

theorem subSize_add (b k : Nat) (hk : k < 2 ^ 64) : subSize (b + k) b = k := by
  rw [subSize, show b + k + 2 ^ 64 - b = k + 2 ^ 64 by omega, Nat.add_mod_right]
  exact Nat.mod_eq_of_lt hk

theorem subSize_sub {e b : Nat} (h : b ≤ e) (he : e < 2 ^ 64) : subSize e b = e - b := by
  rw [show e = b + (e - b) by omega, subSize_add _ _ (by omega)]
  omega

theorem readSize_at {data : List UInt8} {b n : Nat} (h : HoldsAt data b (sizeFormat n))
    (hn : n < 2 ^ 32) : readSize data b (b + sizeBytes) = some (.success, n) := by
  rw [readSize, subSize_add _ _ (by decide), if_neg (by omega),
    readBytes_at h (by rw [sizeFormat_length]; rfl)]
  simp [unpackSize_eq n hn]

theorem readG1_at {K : MarshalCodec F G1 G2 GT} (hK : K.Lawful) {data : List UInt8} {b : Nat} {g : G1}
    (h : HoldsAt data b (K.point1 g)) : readG1 K data b = some g := by
  rw [readG1, readBytes_at (k := g1Bytes) h (hK.point1_length g)]
  simp [hK.unpoint1]

theorem readG2_at {K : MarshalCodec F G1 G2 GT} (hK : K.Lawful) {data : List UInt8} {b : Nat} {g : G2}
    (h : HoldsAt data b (K.point2 g)) : readG2 K data b = some g := by
  rw [readG2, readBytes_at (k := g2Bytes) h (hK.point2_length g)]
  simp [hK.unpoint2]

theorem readFr_at [Zero F] {K : MarshalCodec F G1 G2 GT} (hK : K.Lawful) {data : List UInt8} {b : Nat}
    {x : F} (h : HoldsAt data b (leBytes 32 (K.frNat x))) : readFr K data b = some (.success, x) := by
  rw [readFr, readBytes_at (k := frBytes) h (leBytes_length _ _)]
  simp [hK.frDecode]

theorem readMany_at {α : Type} {data : List UInt8} (item : Nat → Option α) (size : Nat)
    (enc : α → List UInt8) : ∀ (l : List α) (b : Nat), (∀ x ∈ l, (enc x).length = size) →
      (∀ x ∈ l, ∀ b, HoldsAt data b (enc x) → item b = some x) → HoldsAt data b (l.flatMap enc) →
      readMany item size b l.length = some l
  | [], b, _, _, _ => rfl
  | x :: l, b, hs, hi, h => by
    rw [List.flatMap_cons] at h
    rw [List.length_cons, readMany, hi x (by simp) b h.left,
      readMany_at item size enc l (b + size) (fun y hy => hs y (by simp [hy]))
        (fun y hy => hi y (by simp [hy])) (h.right (hs x (by simp)))]
    rfl

theorem readSizes_at {data : List UInt8} : ∀ (l : List Nat) (b : Nat), (∀ x ∈ l, x < 2 ^ 32) →
    HoldsAt data b (l.flatMap sizeFormat) → readSizes data b l.length = some (.success, l)
  | [], b, _, _ => rfl
  | x :: l, b, hs, h => by
    rw [List.flatMap_cons] at h
    rw [List.length_cons, readSizes, readSize_at h.left (hs x (by simp))]
    simp only [Option.bind_eq_bind, Option.bind_some]
    rw [readSizes_at l _ (fun y hy => hs y (by simp [hy])) (h.right (k := sizeBytes) (sizeFormat_length x))]
    simp

theorem readFrs_at [Zero F] {K : MarshalCodec F G1 G2 GT} (hK : K.Lawful) {data : List UInt8} :
    ∀ (l : List F) (b : Nat), HoldsAt data b (l.flatMap fun x => leBytes 32 (K.frNat x)) →
      readFrs K data b l.length = some (.success, l)
  | [], b, _ => rfl
  | x :: l, b, h => by
    rw [List.flatMap_cons] at h
    rw [List.length_cons, readFrs, readFr_at hK h.left]
    simp only [Option.bind_eq_bind, Option.bind_some]
    rw [readFrs_at hK l _ (h.right (k := frBytes) (leBytes_length _ _))]
    simp

theorem readTerm_at [Zero F] {K : MarshalCodec F G1 G2 GT} (hK : K.Lawful) {data : List UInt8}
    {b : Nat} {t : LinearTerm F} (ht : t.index < 2 ^ 32)
    (h : HoldsAt data b (sizeFormat t.index ++ leBytes 32 (K.frNat t.coeff))) :
    readTerm K data b = some (.success, t) := by
  rw [readTerm, readSize_at h.left ht]
  simp only [Option.bind_eq_bind, Option.bind_some]
  rw [readFr_at hK (h.right (k := sizeBytes) (sizeFormat_length _))]
  simp

theorem readTerms_at [Zero F] {K : MarshalCodec F G1 G2 GT} (hK : K.Lawful) {data : List UInt8} :
    ∀ (l : LinComb F) (b : Nat), (∀ t ∈ l, t.index < 2 ^ 32) →
      HoldsAt data b (l.flatMap fun t => sizeFormat t.index ++ leBytes 32 (K.frNat t.coeff)) →
      readTerms K data b l.length = some (.success, l)
  | [], b, _, _ => rfl
  | x :: l, b, hl, h => by
    rw [List.flatMap_cons] at h
    rw [List.length_cons, readTerms, readTerm_at hK (hl x (by simp)) h.left]
    simp only [Option.bind_eq_bind, Option.bind_some]
    rw [readTerms_at hK l _ (fun y hy => hl y (by simp [hy]))
      (h.right (k := termBytes) (by simp [sizeFormat_length, leBytes_length, termBytes, sizeBytes, frBytes]))]
    simp

theorem readComb_at [Field F] (srt : List (LinearTerm F) → List (LinearTerm F))
    {K : MarshalCodec F G1 G2 GT} (hK : K.Lawful) {data : List UInt8} {lc : LinComb F} {b : Nat}
    (hl : lc.SizesFit) (h : HoldsAt data b (combFormat K lc)) :
    readComb srt K data b = some (.success, LinComb.ofTerms srt lc) := by
  rw [combFormat] at h
  rw [readComb, readSize_at h.left hl.1]
  simp only [Option.bind_eq_bind, Option.bind_some]
  rw [readTerms_at hK lc _ hl.2 (h.right (k := sizeBytes) (sizeFormat_length _))]
  simp

theorem parse_step {α β : Type} {x : Option (MStatus × α)} {a : α} {g : MStatus × α → Option β}
    {f : MStatus × α → Option β} {y : Option β} (h : x = some (.success, a))
    (h2 : f (.success, a) = y) :
    (x >>= fun r => if r.1 ≠ .success then g r else f r) = y := by
  rw [h]
  simpa using h2

theorem comb_head {K : MarshalCodec F G1 G2 GT} {data : List UInt8} {lc : LinComb F} {b : Nat}
    (h : HoldsAt data b (combFormat K lc)) : HoldsAt data b (sizeFormat lc.length) := by
  rw [combFormat] at h
  exact h.left

/-- a constraint after its linear combinations have been through the constructor -/
def R1CSConstraint.normalize [Field F] (srt : List (LinearTerm F) → List (LinearTerm F))
    (k : R1CSConstraint F) : R1CSConstraint F :=
  ⟨LinComb.ofTerms srt k.a, LinComb.ofTerms srt k.b, LinComb.ofTerms srt k.c⟩

theorem readConstraint_at [Field F] (srt : List (LinearTerm F) → List (LinearTerm F))
    {K : MarshalCodec F G1 G2 GT} (hK : K.Lawful) {data : List UInt8} {k : R1CSConstraint F} {b : Nat}
    (ha : k.a.SizesFit) (hb : k.b.SizesFit) (hc : k.c.SizesFit)
    (h : HoldsAt data b (constraintBody K k)) :
    readConstraint srt K data b = some (.success, k.normalize srt) := by
  rw [constraintBody] at h
  have h1 := h.left.left
  have h2 := h.left.right (k := k.a.length * termBytes + sizeBytes) (by
    rw [combFormat_length]; simp only [termBytes, sizeBytes, frBytes])
  have h3 := h.right (k := (k.a.length * termBytes + sizeBytes) + (k.b.length * termBytes + sizeBytes))
    (by
      rw [List.length_append, combFormat_length, combFormat_length]
      simp only [termBytes, sizeBytes, frBytes])
  rw [← add_assoc] at h3
  have s1 := readSize_at (comb_head h1) ha.1
  have s2 := readSize_at (comb_head h2) hb.1
  have s3 := readSize_at (comb_head h3) hc.1
  have c1 := readComb_at srt hK ha h1
  have c2 := readComb_at srt hK hb h2
  have c3 := readComb_at srt hK hc h3
  rw [readConstraint]
  refine parse_step s1 ?_
  refine parse_step c1 ?_
  generalize k.a.length * termBytes + sizeBytes = A at *
  refine parse_step s2 ?_
  refine parse_step c2 ?_
  generalize k.b.length * termBytes + sizeBytes = B at *
  refine parse_step s3 ?_
  exact parse_step c3 rfl

theorem readConstraints_at [Field F] (srt : List (LinearTerm F) → List (LinearTerm F))
    {K : MarshalCodec F G1 G2 GT} (hK : K.Lawful) {data : List UInt8} :
    ∀ (l : List (R1CSConstraint F)) (b : Nat),
      (∀ k ∈ l, k.a.SizesFit ∧ k.b.SizesFit ∧ k.c.SizesFit ∧
        36 * (k.a.length + k.b.length + k.c.length) + 12 < 2 ^ 32) →
      HoldsAt data b
        (l.flatMap fun k => sizeFormat (constraintBody K k).length ++ constraintBody K k) →
      readConstraints srt K data .success b l.length =
        some (.success, l.map (R1CSConstraint.normalize srt))
  | [], b, _, _ => rfl
  | k :: l, b, hl, h => by
    rw [List.flatMap_cons] at h
    obtain ⟨ha, hb, hc, hs⟩ := hl k (by simp)
    have hlen : (constraintBody K k).length < 2 ^ 32 := by
      simp only [constraintBody, List.length_append, combFormat_length]
      omega
    have r1 := readSize_at h.left.left hlen
    have r2 := readConstraint_at srt hK ha hb hc
      (h.left.right (k := sizeBytes) (sizeFormat_length _))
    have h2 := h.right (k := sizeBytes + (constraintBody K k).length)
      (by rw [List.length_append, sizeFormat_length]; rfl)
    rw [← add_assoc] at h2
    have r3 := readConstraints_at srt hK l _ (fun y hy => hl y (by simp [hy])) h2
    rw [List.length_cons, readConstraints]
    refine Option.bind_eq_some_iff.mpr ⟨_, r1, ?_⟩
    refine Option.bind_eq_some_iff.mpr ⟨_, r2, ?_⟩
    exact Option.bind_eq_some_iff.mpr ⟨_, r3, rfl⟩

theorem readSystem_at [Field F] (srt : List (LinearTerm F) → List (LinearTerm F))
    {K : MarshalCodec F G1 G2 GT} (hK : K.Lawful) {data : List UInt8} {cs : R1CS F} {b : Nat}
    (hcs : cs.SizesFit) (h : HoldsAt data b (systemFormat K cs)) :
    readSystem srt K data b = some (.success, ⟨cs.primaryInputSize, cs.auxiliaryInputSize,
      cs.constraints.map (R1CSConstraint.normalize srt)⟩) := by
  rw [systemFormat] at h
  obtain ⟨hp, hx, hn, hk⟩ := hcs
  have h1 := h.left.left.left
  have h2 := h.left.left.right (k := sizeBytes) (sizeFormat_length _)
  have h3 := h.left.right (k := 2 * sizeBytes) (by simp [sizeFormat_length, sizeBytes])
  have h4 := h.right (k := 3 * sizeBytes) (by simp [sizeFormat_length, sizeBytes])
  have s2 := readSize_at h2 hx
  have s3 := readSize_at h3 hn
  have s1 := readSize_at h1 hp
  rw [show b + sizeBytes + sizeBytes = b + 2 * sizeBytes by simp [sizeBytes]] at s2
  rw [show b + 2 * sizeBytes + sizeBytes = b + 3 * sizeBytes by simp [sizeBytes]] at s3
  have s4 := readConstraints_at srt hK cs.constraints _ hk h4
  rw [readSystem]
  refine parse_step s1 ?_
  refine parse_step s2 ?_
  refine parse_step s3 ?_
  exact Option.bind_eq_some_iff.mpr ⟨_, s4, rfl⟩

theorem flatMap_map_fst {α : Type} (l : List (Nat × α)) (f : Nat → List UInt8) :
    (l.flatMap fun e => f e.1) = (l.map Prod.fst).flatMap f := by
  simp [List.flatMap_map]

theorem flatMap_map_snd {α : Type} (l : List (Nat × α)) (f : α → List UInt8) :
    (l.flatMap fun e => f e.2) = (l.map Prod.snd).flatMap f := by
  simp [List.flatMap_map]

theorem zip_fst_snd {α β : Type} : ∀ l : List (α × β), (l.map Prod.fst).zip (l.map Prod.snd) = l
  | [] => rfl
  | (a, b) :: l => by simp [zip_fst_snd l]

theorem sparse_parts {α : Type} {data : List UInt8} {b : Nat} (item : α → List UInt8) (size : Nat)
    (v : KcVec α) (hi : ∀ x, (item x).length = size) (h : HoldsAt data b (sparseFormat item v)) :
    HoldsAt data b (sizeFormat v.entries.length) ∧
    HoldsAt data (b + sizeBytes) ((v.entries.map Prod.fst).flatMap sizeFormat) ∧
    HoldsAt data (b + sizeBytes + v.entries.length * sizeBytes)
      ((v.entries.map Prod.snd).flatMap item) ∧
    HoldsAt data (b + sizeBytes + v.entries.length * sizeBytes + v.entries.length * size)
      (sizeFormat v.domainSize) := by
  rw [sparseFormat, flatMap_map_fst, flatMap_map_snd] at h
  have l1 : ((v.entries.map Prod.fst).flatMap sizeFormat).length = v.entries.length * sizeBytes := by
    rw [flatMap_length_const _ 4 _ fun _ _ => sizeFormat_length _, List.length_map]; rfl
  have l2 : ((v.entries.map Prod.snd).flatMap item).length = v.entries.length * size := by
    rw [flatMap_length_const _ size _ fun _ _ => hi _, List.length_map]
  refine ⟨h.left.left.left, h.left.left.right (k := sizeBytes) (sizeFormat_length _), ?_, ?_⟩
  · have := h.left.right (k := sizeBytes + v.entries.length * sizeBytes)
      (by rw [List.length_append, sizeFormat_length, l1]; rfl)
    rwa [← add_assoc] at this
  · have := h.right (k := sizeBytes + v.entries.length * sizeBytes + v.entries.length * size)
      (by rw [List.length_append, List.length_append, sizeFormat_length, l1, l2]; rfl)
    rwa [← add_assoc, ← add_assoc] at this

theorem readSparse_at {K : MarshalCodec F G1 G2 GT} (hK : K.Lawful) {data : List UInt8} {b e : Nat}
    {v : KcVec G1} (hv : v.SizesFit) (he : e < 2 ^ 64)
    (hle : b + (sparseFormat K.point1 v).length ≤ e)
    (h : HoldsAt data b (sparseFormat K.point1 v)) :
    readSparse K data b e = some (.success, v) := by
  obtain ⟨h1, h2, h3, h4⟩ := sparse_parts K.point1 g1Bytes v hK.point1_length h
  obtain ⟨f1, f2, f3⟩ := hv
  have hl : (sparseFormat K.point1 v).length =
      sizeBytes + v.entries.length * sizeBytes + v.entries.length * g1Bytes + sizeBytes := by
    simp only [sparseFormat, List.length_append, sizeFormat_length]
    rw [flatMap_length_const _ 4 _ fun _ _ => sizeFormat_length _,
      flatMap_length_const _ 48 _ fun _ _ => hK.point1_length _]
    rfl
  have r2 := readSizes_at (data := data) (v.entries.map Prod.fst) (b + sizeBytes)
    (by intro x hx; obtain ⟨y, hy, rfl⟩ := List.mem_map.mp hx; exact f3 y hy) h2
  have r3 := readMany_at (data := data) (readG1 K data) g1Bytes K.point1 (v.entries.map Prod.snd) _
    (fun x _ => hK.point1_length x) (fun x _ b hb => readG1_at hK hb) h3
  rw [List.length_map] at r2 r3
  have hsub : subSize e b = e - b := subSize_sub (by omega) he
  have r4 := readSize_at h4 f2
  rw [readSparse, if_neg (by rw [hsub]; omega)]
  refine parse_step (readSize_at h1 f1) ?_
  dsimp only
  rw [if_neg (by rw [hsub]; omega)]
  refine parse_step r2 ?_
  refine Option.bind_eq_some_iff.mpr ⟨_, r3, ?_⟩
  refine parse_step r4 ?_
  rw [zip_fst_snd]
  rfl

theorem readKcVec_at {K : MarshalCodec F G1 G2 GT} (hK : K.Lawful) {data : List UInt8} {b k : Nat}
    {v : KcVec (G2 × G1)} (hv : v.SizesFit) (hk : sizeBytes ≤ k) (hk2 : k < 2 ^ 64)
    (h : HoldsAt data b (kcFormat K v)) :
    readKcVec K data b (b + k) = some (.success, v) := by
  obtain ⟨h1, h2, h3, h4⟩ := sparse_parts (fun e : G2 × G1 => K.point2 e.1 ++ K.point1 e.2) kcBytes v
    (fun x => by simp [hK.point1_length, hK.point2_length, kcBytes, g1Bytes, g2Bytes]) h
  obtain ⟨f1, f2, f3⟩ := hv
  have r2 := readSizes_at (data := data) (v.entries.map Prod.fst) (b + sizeBytes)
    (by intro x hx; obtain ⟨y, hy, rfl⟩ := List.mem_map.mp hx; exact f3 y hy) h2
  have r3 := readMany_at (data := data) (readKc K data) kcBytes
    (fun e : G2 × G1 => K.point2 e.1 ++ K.point1 e.2) (v.entries.map Prod.snd) _
    (fun x _ => by simp [hK.point1_length, hK.point2_length, kcBytes, g1Bytes, g2Bytes])
    (fun x _ b hb => by
      rw [readKc, readG2_at hK hb.left]
      simp only [Option.bind_eq_bind, Option.bind_some]
      rw [readG1_at hK (hb.right (k := g2Bytes) (hK.point2_length _))]
      rfl) h3
  rw [List.length_map] at r2 r3
  have r4 := readSize_at h4 f2
  rw [readKcVec, subSize_add _ _ hk2, if_neg (by omega)]
  refine parse_step (readSize_at h1 f1) ?_
  refine parse_step r2 ?_
  refine Option.bind_eq_some_iff.mpr ⟨_, r3, ?_⟩
  refine parse_step r4 ?_
  rw [zip_fst_snd]
  rfl

theorem readAcc_at [Zero G1] {K : MarshalCodec F G1 G2 GT} (hK : K.Lawful) {data : List UInt8}
    {b e : Nat} {g : G1} {v : KcVec G1} (hv : v.SizesFit) (he : e < 2 ^ 64)
    (hle : b + (K.point1 g ++ sparseFormat K.point1 v).length ≤ e)
    (h : HoldsAt data b (K.point1 g ++ sparseFormat K.point1 v)) :
    readAcc K data b e = some (.success, g, v) := by
  rw [List.length_append, hK.point1_length] at hle
  have r1 := readG1_at hK h.left
  have r2 := readSparse_at hK hv he (by rw [g1Bytes]; omega)
    (h.right (k := g1Bytes) (hK.point1_length g))
  rw [readAcc, subSize_sub (by omega) he, if_neg (by rw [g1Bytes]; omega)]
  refine Option.bind_eq_some_iff.mpr ⟨_, r1, ?_⟩
  exact parse_step r2 rfl

theorem readVK_at [Zero G1] {K : MarshalCodec F G1 G2 GT} (hK : K.Lawful) {data : List UInt8}
    {b e : Nat} {vk : SparseVK G1 G2 GT} (hv : vk.rest.SizesFit) (he : e < 2 ^ 64)
    (hle : b + (vkFormat K vk).length ≤ e) (h : HoldsAt data b (vkFormat K vk)) :
    readVK K data b e = some (.success, some vk) := by
  have hg : ((K.gtNats vk.alphaBeta).flatMap (leBytes 48)).length = gtBytes := by
    rw [flatMap_length_const _ 48 _ fun _ _ => leBytes_length _ _, hK.gt_length]; rfl
  rw [vkFormat, List.append_assoc] at h hle
  have h4 := h.right (k := gtBytes + g2Bytes + g2Bytes) (by
    rw [List.length_append, List.length_append, hg, hK.point2_length, hK.point2_length]; rfl)
  rw [← add_assoc, ← add_assoc] at h4
  have h3 := h.left.right (k := gtBytes + g2Bytes) (by
    rw [List.length_append, hg, hK.point2_length]; rfl)
  rw [← add_assoc] at h3
  have h2 := h.left.left.right hg
  rw [List.length_append, List.length_append, List.length_append, hg, hK.point2_length,
    hK.point2_length] at hle
  have r1 := readBytes_at h.left.left.left hg
  have r2 := readG2_at hK h2
  have r3 := readG2_at hK h3
  have r4 := readAcc_at hK hv he (by rw [g2Bytes]; omega) h4
  rw [readVK, subSize_sub (by omega) he, if_neg (by rw [g2Bytes]; omega)]
  refine Option.bind_eq_some_iff.mpr ⟨_, r1, ?_⟩
  rw [hK.gtDecode]
  refine Option.bind_eq_some_iff.mpr ⟨_, r2, ?_⟩
  refine Option.bind_eq_some_iff.mpr ⟨_, r3, ?_⟩
  exact parse_step r4 rfl

theorem readInput_at [Zero F] {K : MarshalCodec F G1 G2 GT} (hK : K.Lawful) {data : List UInt8}
    {b e : Nat} {pi : List F} (hn : pi.length < 2 ^ 32) (he : subSize e b = (inputFormat K pi).length)
    (h : HoldsAt data b (inputFormat K pi)) : readInput K data b e = some (.success, pi) := by
  rw [inputFormat, List.length_append, sizeFormat_length,
    flatMap_length_const _ 32 _ fun _ _ => leBytes_length _ _] at he
  rw [readInput, he, if_neg (by rw [sizeBytes]; omega), readSize_at h.left hn]
  simp only [Option.bind_eq_bind, Option.bind_some]
  rw [if_neg (by simp), if_neg (by rw [sizeBytes, frBytes]; omega),
    readFrs_at hK pi _ (h.right (k := sizeBytes) (sizeFormat_length _))]

theorem readProof_at {K : MarshalCodec F G1 G2 GT} (hK : K.Lawful) {data : List UInt8}
    {b e : Nat} {π : Groth16Proof G1 G2} (he : g1Bytes + g2Bytes + g1Bytes ≤ subSize e b)
    (h : HoldsAt data b (proofFormat K π)) : readProof K data b e = some (.success, some π) := by
  rw [proofFormat] at h
  have h3 := h.right (k := g1Bytes + g2Bytes) (by
    rw [List.length_append, hK.point1_length, hK.point2_length]; rfl)
  rw [← add_assoc] at h3
  rw [readProof, if_neg (by omega), readG1_at hK h.left.left]
  simp only [Option.bind_eq_bind, Option.bind_some]
  rw [readG2_at hK (h.left.right (k := g1Bytes) (hK.point1_length _))]
  simp only [Option.bind_some]
  rw [readG1_at hK h3]
  rfl

theorem readPK_at [Field F] (srt : List (LinearTerm F) → List (LinearTerm F))
    {K : MarshalCodec F G1 G2 GT} (hK : K.Lawful) {data : List UInt8} {b : Nat}
    {pk : Groth16PK F G1 G2} (ha : pk.aQuery.length < 2 ^ 32) (hb : pk.bQuery.SizesFit)
    (hb2 : (kcFormat K pk.bQuery).length < 2 ^ 32) (hh : pk.hQuery.length < 2 ^ 32)
    (hl : pk.lQuery.length < 2 ^ 32) (hcs : pk.cs.SizesFit) (h : HoldsAt data b (pkFormat K pk)) :
    readPK srt K data b = some (.success, { pk with
      cs := ⟨pk.cs.primaryInputSize, pk.cs.auxiliaryInputSize,
        pk.cs.constraints.map (R1CSConstraint.normalize srt)⟩ }) := by
  have hp : ∀ (l : List G1) (b : Nat), HoldsAt data b (l.flatMap K.point1) →
      readMany (readG1 K data) g1Bytes b l.length = some l := fun l b hb =>
    readMany_at (readG1 K data) g1Bytes K.point1 l b (fun x _ => hK.point1_length x)
      (fun x _ b hb => readG1_at hK hb) hb
  have hpl : ∀ l : List G1, (l.flatMap K.point1).length = l.length * g1Bytes := fun l =>
    flatMap_length_const _ g1Bytes _ fun _ _ => hK.point1_length _
  rw [pkFormat] at h
  simp only [pointsFormat, List.append_assoc] at h
  have r1 := readG1_at hK h.left
  replace h := h.right (k := g1Bytes) (hK.point1_length _)
  have r2 := readG1_at hK h.left
  replace h := h.right (k := g1Bytes) (hK.point1_length _)
  have r3 := readG2_at hK h.left
  replace h := h.right (k := g2Bytes) (hK.point2_length _)
  have r4 := readG1_at hK h.left
  replace h := h.right (k := g1Bytes) (hK.point1_length _)
  have r5 := readG2_at hK h.left
  replace h := h.right (k := g2Bytes) (hK.point2_length _)
  have r6 := readSize_at h.left ha
  replace h := h.right (k := sizeBytes) (sizeFormat_length _)
  have r7 := hp _ _ h.left
  replace h := h.right (hpl _)
  have r8 := readSize_at h.left hb2
  replace h := h.right (k := sizeBytes) (sizeFormat_length _)
  have hkc : sizeBytes ≤ (kcFormat K pk.bQuery).length := by
    rw [kcFormat, sparseFormat]
    simp only [List.length_append, sizeFormat_length, sizeBytes]
    omega
  have r9 := readKcVec_at hK hb hkc (by omega) h.left
  replace h := h.right rfl
  have r10 := readSize_at h.left hh
  replace h := h.right (k := sizeBytes) (sizeFormat_length _)
  have r11 := hp _ _ h.left
  replace h := h.right (hpl _)
  have r12 := readSize_at h.left hl
  replace h := h.right (k := sizeBytes) (sizeFormat_length _)
  have r13 := hp _ _ h.left
  replace h := h.right (hpl _)
  have r14 := readSystem_at srt hK hcs h
  clear h hp hpl
  generalize (kcFormat K pk.bQuery).length = nb at *
  rw [readPK]
  refine Option.bind_eq_some_iff.mpr ⟨_, r1, ?_⟩
  refine Option.bind_eq_some_iff.mpr ⟨_, r2, ?_⟩
  refine Option.bind_eq_some_iff.mpr ⟨_, r3, ?_⟩
  refine Option.bind_eq_some_iff.mpr ⟨_, r4, ?_⟩
  refine Option.bind_eq_some_iff.mpr ⟨_, r5, ?_⟩
  refine Option.bind_eq_some_iff.mpr ⟨_, r6, ?_⟩
  refine Option.bind_eq_some_iff.mpr ⟨_, r7, ?_⟩
  refine Option.bind_eq_some_iff.mpr ⟨_, r8, ?_⟩
  refine Option.bind_eq_some_iff.mpr ⟨_, r9, ?_⟩
  refine Option.bind_eq_some_iff.mpr ⟨_, r10, ?_⟩
  refine Option.bind_eq_some_iff.mpr ⟨_, r11, ?_⟩
  refine Option.bind_eq_some_iff.mpr ⟨_, r12, ?_⟩
  refine Option.bind_eq_some_iff.mpr ⟨_, r13, ?_⟩
  exact Option.bind_eq_some_iff.mpr ⟨_, r14, rfl⟩

theorem ofTerms_canonical [Field F] (srt : List (LinearTerm F) → List (LinearTerm F))
    (hs : IsIndexSort srt) (lc : LinComb F) (h : Canonical lc) : LinComb.ofTerms srt lc = lc := by
  have hinj : ∀ s ∈ lc, ∀ t ∈ lc, s.index = t.index → s = t := by
    have hnd : (lc.map LinearTerm.index).Nodup := by
      rw [List.Nodup, List.pairwise_map]
      exact h.imp fun hlt => by omega
    exact fun s hs t ht => List.inj_on_of_nodup_map hnd hs ht
  have heq : srt lc = lc := by
    refine List.Perm.eq_of_pairwise (le := fun s t : LinearTerm F => s.index ≤ t.index) ?_ (hs lc).2
      (h.imp fun hlt => le_of_lt hlt) (hs lc).1
    intro a b ha hb h1 h2
    exact hinj a ((hs lc).1.mem_iff.mp ha) b hb (le_antisymm h1 h2)
  have hm : ∀ (c : LinearTerm F) (cs : List (LinearTerm F)), Canonical (c :: cs) →
      LinComb.mergeRuns c cs = c :: cs := by
    intro c cs
    induction cs generalizing c with
    | nil => intro _; rfl
    | cons t ts ih =>
      intro hc
      have h1 := (List.pairwise_cons.mp hc).1 t (by simp)
      rw [LinComb.mergeRuns, if_neg (by omega), ih t (List.pairwise_cons.mp hc).2]
  cases lc with
  | nil => rfl
  | cons c cs =>
    rw [LinComb.ofTerms, heq]
    simpa using hm c cs h

end Crypto3Zk
