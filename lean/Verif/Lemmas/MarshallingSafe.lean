import Verif.Lemmas.MarshallingRead

/-!
# Reads that stay inside the vector
-/

set_option linter.unusedSectionVars false

namespace Crypto3Zk

variable {F G1 G2 GT : Type}

theorem bind_ok {α β : Type} {x : Option α} {a : α} {f : α → Option β} (h : x = some a)
    (h2 : ∃ s, f a = some s) : ∃ s, (x >>= f) = some s := by
  rw [h]
  exact h2

theorem bind_none {α β : Type} {x : Option α} {f : α → Option β} (h : x = none) :
    (x >>= f) = none := by
  rw [h]
  rfl

theorem parse_ok {α β : Type} {x : Option (MStatus × α)} {r : MStatus × α}
    {g : MStatus × α → β} {f : MStatus × α → Option β} (h : x = some r)
    (h2 : r.1 = .success → ∃ s, f r = some s) :
    ∃ s, (x >>= fun r => if r.1 ≠ .success then pure (g r) else f r) = some s := by
  refine bind_ok h ?_
  by_cases hr : r.1 = .success
  · rw [if_neg (by simpa using hr)]
    exact h2 hr
  · rw [if_pos hr]
    exact ⟨_, rfl⟩

theorem readBytes_inside {data : List UInt8} {b k : Nat} (h : b + k ≤ data.length) :
    ∃ bs, readBytes data b k = some bs := ⟨_, if_pos h⟩

theorem readBytes_bound {data : List UInt8} {b k : Nat} {bs : List UInt8}
    (h : readBytes data b k = some bs) : b + k ≤ data.length := by
  rw [readBytes] at h
  split at h
  · assumption
  · simp at h

theorem readSize_inside {data : List UInt8} {b : Nat} (h : b + 4 ≤ data.length) :
    ∃ n, readSize data b (b + sizeBytes) = some (.success, n) := by
  obtain ⟨bs, hbs⟩ := readBytes_inside (k := sizeBytes) h
  exact ⟨unpackSize bs, by rw [readSize, subSize_add _ _ (by decide), if_neg (by omega), hbs]; rfl⟩

theorem readSize_bound {data : List UInt8} {b : Nat} {r : MStatus × Nat}
    (h : readSize data b (b + sizeBytes) = some r) : b + 4 ≤ data.length := by
  rw [readSize, subSize_add _ _ (by decide), if_neg (by omega)] at h
  obtain ⟨bs, hbs, -⟩ := Option.bind_eq_some_iff.mp h
  exact readBytes_bound hbs

theorem readG1_inside (K : MarshalCodec F G1 G2 GT) {data : List UInt8} {b : Nat}
    (h : b + 48 ≤ data.length) : ∃ g, readG1 K data b = some g := by
  obtain ⟨bs, hbs⟩ := readBytes_inside (k := g1Bytes) h
  exact ⟨_, by rw [readG1, hbs]; rfl⟩

theorem readG2_inside (K : MarshalCodec F G1 G2 GT) {data : List UInt8} {b : Nat}
    (h : b + 96 ≤ data.length) : ∃ g, readG2 K data b = some g := by
  obtain ⟨bs, hbs⟩ := readBytes_inside (k := g2Bytes) h
  exact ⟨_, by rw [readG2, hbs]; rfl⟩

theorem readMany_inside {α : Type} {data : List UInt8} (item : Nat → Option α) (size : Nat)
    (hi : ∀ b, b + size ≤ data.length → ∃ x, item b = some x) :
    ∀ k b, b + k * size ≤ data.length → ∃ xs, readMany item size b k = some xs
  | 0, b, _ => ⟨[], rfl⟩
  | k + 1, b, h => by
    rw [Nat.add_mul, one_mul] at h
    obtain ⟨x, hx⟩ := hi b (by omega)
    obtain ⟨xs, hxs⟩ := readMany_inside item size hi k (b + size) (by omega)
    exact ⟨x :: xs, by rw [readMany, hx, hxs]; rfl⟩

theorem readSizes_inside {data : List UInt8} : ∀ k b, b + k * 4 ≤ data.length →
    ∃ xs, readSizes data b k = some (.success, xs)
  | 0, b, _ => ⟨[], rfl⟩
  | k + 1, b, h => by
    obtain ⟨x, hx⟩ := readSize_inside (data := data) (b := b) (by omega)
    obtain ⟨xs, hxs⟩ := readSizes_inside (data := data) k (b + sizeBytes) (by rw [sizeBytes]; omega)
    refine ⟨x :: xs, ?_⟩
    rw [readSizes]
    refine parse_step hx ?_
    exact parse_step hxs rfl

theorem readFrs_inside [Zero F] (K : MarshalCodec F G1 G2 GT) {data : List UInt8} :
    ∀ k b, b + k * 32 ≤ data.length → ∃ r, readFrs K data b k = some r
  | 0, b, _ => ⟨_, rfl⟩
  | k + 1, b, h => by
    obtain ⟨bs, hbs⟩ := readBytes_inside (data := data) (b := b) (k := frBytes) (by rw [frBytes]; omega)
    obtain ⟨⟨st, xs⟩, hxs⟩ := readFrs_inside K (data := data) k (b + frBytes) (by rw [frBytes]; omega)
    rw [readFrs, readFr, hbs, hxs]
    rcases hdec : K.frDecode bs with _ | x
    · exact ⟨(.invalidMsgData, []), by simp [hdec]⟩
    · by_cases hst : st = .success
      · exact ⟨(st, x :: xs), by simp [hst, hdec]⟩
      · exact ⟨(st, []), by simp [hst, hdec]⟩

theorem readSparse_inside (K : MarshalCodec F G1 G2 GT) {data : List UInt8} {b e : Nat} (hb : b ≤ e)
    (he : e ≤ data.length) (hd : data.length < 2 ^ 64) : ∃ r, readSparse K data b e = some r := by
  rw [readSparse, subSize_sub hb (by omega)]
  by_cases h1 : e - b < sizeBytes
  · rw [if_pos h1]
    exact ⟨_, rfl⟩
  rw [if_neg h1]
  have h1' : 4 ≤ e - b := by rw [sizeBytes] at h1; omega
  obtain ⟨n, hn⟩ := readSize_inside (data := data) (b := b) (by omega)
  by_cases h2 : e - b < sizeBytes + n * sizeBytes + n * g1Bytes + sizeBytes
  · refine ⟨(.notEnoughData, ⟨0, []⟩), ?_⟩
    refine parse_step hn ?_
    dsimp only
    rw [if_pos h2]
    rfl
  · have h2' : 4 + n * 4 + n * 48 + 4 ≤ e - b := by rw [sizeBytes, g1Bytes] at h2; omega
    obtain ⟨idx, hidx⟩ := readSizes_inside (data := data) n (b + sizeBytes) (by rw [sizeBytes]; omega)
    obtain ⟨vals, hvals⟩ := readMany_inside (data := data) (readG1 K data) g1Bytes
      (fun b hb => readG1_inside K hb) n (b + sizeBytes + n * sizeBytes)
      (by rw [sizeBytes, g1Bytes]; omega)
    obtain ⟨d, hd⟩ := readSize_inside (data := data) (b := b + sizeBytes + n * sizeBytes + n * g1Bytes)
      (by rw [sizeBytes, g1Bytes]; omega)
    refine ⟨(.success, ⟨d, idx.zip vals⟩), ?_⟩
    refine parse_step hn ?_
    dsimp only
    rw [if_neg h2]
    refine parse_step hidx ?_
    refine Option.bind_eq_some_iff.mpr ⟨_, hvals, ?_⟩
    exact parse_step hd rfl

theorem readAcc_inside [Zero G1] (K : MarshalCodec F G1 G2 GT) {data : List UInt8} {b e : Nat}
    (hb : b ≤ e) (he : e ≤ data.length) (hd : data.length < 2 ^ 64) :
    ∃ r, readAcc K data b e = some r := by
  rw [readAcc, subSize_sub hb (by omega)]
  by_cases h1 : e - b < g1Bytes
  · rw [if_pos h1]
    exact ⟨_, rfl⟩
  rw [if_neg h1]
  have h1' : 48 ≤ e - b := by rw [g1Bytes] at h1; omega
  obtain ⟨g, hg⟩ := readG1_inside K (data := data) (b := b) (by omega)
  obtain ⟨⟨st, r⟩, hr⟩ := readSparse_inside K (data := data) (b := b + g1Bytes) (e := e)
    (by rw [g1Bytes]; omega) he hd
  by_cases hst : st = .success
  · subst hst
    refine ⟨(.success, g, r), ?_⟩
    refine Option.bind_eq_some_iff.mpr ⟨_, hg, ?_⟩
    exact parse_step hr rfl
  · refine ⟨(st, 0, ⟨0, []⟩), ?_⟩
    refine Option.bind_eq_some_iff.mpr ⟨_, hg, ?_⟩
    refine Option.bind_eq_some_iff.mpr ⟨_, hr, ?_⟩
    exact if_pos hst

theorem readVK_inside [Zero G1] (K : MarshalCodec F G1 G2 GT) {data : List UInt8} {b e : Nat}
    (hb : b ≤ e) (he : e ≤ data.length) (hd : data.length < 2 ^ 64) :
    ∃ r, readVK K data b e = some r := by
  rw [readVK, subSize_sub hb (by omega)]
  by_cases h1 : e - b < gtBytes + g2Bytes + g2Bytes
  · rw [if_pos h1]
    exact ⟨_, rfl⟩
  rw [if_neg h1]
  have h1' : 768 ≤ e - b := by
    have : gtBytes + g2Bytes + g2Bytes = 768 := rfl
    omega
  have eg : gtBytes = 576 := rfl
  have e2 : g2Bytes = 96 := rfl
  obtain ⟨bs, hbs⟩ := readBytes_inside (data := data) (b := b) (k := gtBytes) (by omega)
  obtain ⟨g, hg⟩ := readG2_inside K (data := data) (b := b + gtBytes) (by omega)
  obtain ⟨d, hd'⟩ := readG2_inside K (data := data) (b := b + gtBytes + g2Bytes) (by omega)
  obtain ⟨⟨st, f, r⟩, hr⟩ := readAcc_inside K (data := data) (b := b + gtBytes + g2Bytes + g2Bytes)
    (e := e) (by omega) he hd
  rcases hdec : K.gtDecode bs with _ | t
  · refine ⟨(.invalidMsgData, none), Option.bind_eq_some_iff.mpr ⟨_, hbs, ?_⟩⟩
    rw [hdec]
    rfl
  · by_cases hst : st = .success
    · subst hst
      refine ⟨(.success, some ⟨t, g, d, f, r⟩), Option.bind_eq_some_iff.mpr ⟨_, hbs, ?_⟩⟩
      rw [hdec]
      refine Option.bind_eq_some_iff.mpr ⟨_, hg, ?_⟩
      refine Option.bind_eq_some_iff.mpr ⟨_, hd', ?_⟩
      exact parse_step hr rfl
    · refine ⟨(st, none), Option.bind_eq_some_iff.mpr ⟨_, hbs, ?_⟩⟩
      rw [hdec]
      refine Option.bind_eq_some_iff.mpr ⟨_, hg, ?_⟩
      refine Option.bind_eq_some_iff.mpr ⟨_, hd', ?_⟩
      refine Option.bind_eq_some_iff.mpr ⟨_, hr, ?_⟩
      exact if_pos hst

theorem readInput_inside [Zero F] (K : MarshalCodec F G1 G2 GT) {data : List UInt8} {b e : Nat}
    (hb : b ≤ e) (he : e ≤ data.length) (hd : data.length < 2 ^ 64) :
    ∃ r, readInput K data b e = some r := by
  rw [readInput, subSize_sub hb (by omega)]
  by_cases h1 : e - b < sizeBytes
  · rw [if_pos h1]
    exact ⟨_, rfl⟩
  rw [if_neg h1]
  have h1' : 4 ≤ e - b := by rw [sizeBytes] at h1; omega
  obtain ⟨n, hn⟩ := readSize_inside (data := data) (b := b) (by omega)
  by_cases h2 : e - b < sizeBytes + n * frBytes
  · refine ⟨(.notEnoughData, []), ?_⟩
    refine parse_step hn ?_
    dsimp only
    rw [if_pos h2]
    rfl
  · have h2' : 4 + n * 32 ≤ e - b := by rw [sizeBytes, frBytes] at h2; omega
    obtain ⟨r, hr⟩ := readFrs_inside K (data := data) n (b + sizeBytes) (by rw [sizeBytes]; omega)
    refine ⟨r, ?_⟩
    refine parse_step hn ?_
    dsimp only
    rw [if_neg h2]
    exact hr

theorem readProof_inside (K : MarshalCodec F G1 G2 GT) {data : List UInt8} {b e : Nat}
    (hb : b ≤ e) (he : e ≤ data.length) (hd : data.length < 2 ^ 64) :
    ∃ r, readProof K data b e = some r := by
  rw [readProof, subSize_sub hb (by omega)]
  by_cases h1 : e - b < g1Bytes + g2Bytes + g1Bytes
  · rw [if_pos h1]
    exact ⟨_, rfl⟩
  rw [if_neg h1]
  have h1' : 192 ≤ e - b := by
    have : g1Bytes + g2Bytes + g1Bytes = 192 := rfl
    omega
  have e1 : g1Bytes = 48 := rfl
  have e2 : g2Bytes = 96 := rfl
  obtain ⟨x, hx⟩ := readG1_inside K (data := data) (b := b) (by omega)
  obtain ⟨y, hy⟩ := readG2_inside K (data := data) (b := b + g1Bytes) (by omega)
  obtain ⟨z, hz⟩ := readG1_inside K (data := data) (b := b + g1Bytes + g2Bytes) (by omega)
  refine ⟨(.success, some ⟨x, y, z⟩), Option.bind_eq_some_iff.mpr ⟨_, hx, ?_⟩⟩
  refine Option.bind_eq_some_iff.mpr ⟨_, hy, ?_⟩
  exact Option.bind_eq_some_iff.mpr ⟨_, hz, rfl⟩

end Crypto3Zk
