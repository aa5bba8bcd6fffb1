import Verif.Model.Groups
import Mathlib.Tactic.Ring
import Mathlib.Tactic.Module
import Mathlib.Data.List.GetD
import Mathlib.Data.List.Range

set_option linter.unusedSectionVars false

namespace Crypto3Zk

variable {F : Type} [Field F] {G : Type} [AddCommGroup G] [Module F G]

/-! ## multi-exponentiation -/

theorem multiexp_eq (gs : List G) (xs : List F) (h : gs.length = xs.length) :
    multiexp gs xs = some (List.zipWith (fun g x => x • g) gs xs).sum := by simp [multiexp, h]

theorem zipWith_smul_batch (g : G) (v xs : List F) :
    (List.zipWith (fun g x => x • g) (v.map fun x => x • g) xs).sum = innerProduct xs v • g := by
  induction v generalizing xs with
  | nil => cases xs <;> simp [innerProduct]
  | cons a v ih =>
    cases xs with
    | nil => simp [innerProduct]
    | cons b xs =>
      simp only [List.map_cons, List.zipWith_cons_cons, List.sum_cons, ih, innerProduct]
      module

theorem multiexp_batchExp (g : G) (v xs : List F) (h : v.length = xs.length) :
    multiexp (batchExp g v) xs = some (innerProduct xs v • g) := by
  rw [multiexp_eq _ _ (by simp [batchExp, h]), batchExp, zipWith_smul_batch]

/-! ## the sparse multi-exponentiation -/

theorem sum_zipWith_append (g : List G) (p : List F) (h : g.length = p.length) (v : G) (s : F) :
    (List.zipWith (fun g x => x • g) (g ++ [v]) (p ++ [s])).sum
      = (List.zipWith (fun g x => x • g) g p).sum + s • v := by
  rw [List.zipWith_append h]
  simp

theorem kcFold_spec [DecidableEq F] (minIdx sl : Nat) (scalars : List F) (es : List (Nat × G))
    (acc : G) (p : List F) (g : List G) (hpg : g.length = p.length)
    (hsl : scalars.length ≤ sl) (hes : ∀ e ∈ es, e.1 - minIdx < scalars.length) :
    ∃ acc' p' g', es.foldlM (kcStep minIdx sl scalars) (acc, p, g) = some (acc', p', g') ∧
      g'.length = p'.length ∧
      acc' + (List.zipWith (fun g x => x • g) g' p').sum
        = acc + (List.zipWith (fun g x => x • g) g p).sum
          + (es.map fun e => scalars.getD (e.1 - minIdx) 0 • e.2).sum := by
  induction es generalizing acc p g with
  | nil => exact ⟨acc, p, g, rfl, hpg, by simp⟩
  | cons e es ih =>
    obtain ⟨idx, v⟩ := e
    have hlt := hes _ (List.mem_cons_self ..)
    simp only at hlt
    have hes' : ∀ e ∈ es, e.1 - minIdx < scalars.length := fun e he => hes e (by simp [he])
    simp only [List.foldlM_cons, kcStep, guard, if_pos (show idx - minIdx < sl by omega),
      Option.pure_def, List.getElem?_eq_getElem hlt, Option.bind_eq_bind,
      Option.bind_some, List.map_cons, List.sum_cons, List.getD_eq_getElem _ _ hlt]
    generalize hs : scalars[idx - minIdx] = s
    by_cases h0 : s = 0
    · obtain ⟨acc', p', g', e1, e2, e3⟩ := ih acc p g hpg hes'
      refine ⟨acc', p', g', by simpa [h0] using e1, e2, ?_⟩
      rw [e3, h0]; simp
    · by_cases h1 : s = 1
      · obtain ⟨acc', p', g', e1, e2, e3⟩ := ih (acc + v) p g hpg hes'
        refine ⟨acc', p', g', by simpa [h0, h1] using e1, e2, ?_⟩
        rw [e3, h1]; module
      · obtain ⟨acc', p', g', e1, e2, e3⟩ := ih acc (p ++ [s]) (g ++ [v]) (by simp [hpg]) hes'
        refine ⟨acc', p', g', by simpa [h0, h1] using e1, e2, ?_⟩
        rw [e3, sum_zipWith_append _ _ hpg]; module

/-- on sorted entries, cutting the interval out with `lower_bound` and the loop condition is
filtering -/
theorem window_eq_filter (es : List (Nat × G)) (hs : es.Pairwise fun a b => a.1 < b.1)
    (lo hi : Nat) :
    (es.dropWhile fun e => decide (e.1 < lo)).takeWhile (fun e => decide (e.1 < hi))
      = es.filter fun e => decide (lo ≤ e.1 ∧ e.1 < hi) := by
  induction es with
  | nil => rfl
  | cons e es ih =>
    obtain ⟨h1, h2⟩ := List.pairwise_cons.1 hs
    by_cases hlo : e.1 < lo
    · rw [List.dropWhile_cons_of_pos (by simpa using hlo), ih h2, List.filter_cons_of_neg]
      simp; omega
    · rw [List.dropWhile_cons_of_neg (by simpa using hlo)]
      by_cases hhi : e.1 < hi
      · rw [List.takeWhile_cons_of_pos (by simpa using hhi),
          List.filter_cons_of_pos (by simp; omega)]
        congr 1
        rw [← ih h2]
        congr 1
        cases es with
        | nil => rfl
        | cons f es =>
          have := h1 f (by simp)
          rw [List.dropWhile_cons_of_neg]
          simp; omega
      · rw [List.takeWhile_cons_of_neg (by simpa using hhi), eq_comm, List.filter_eq_nil_iff]
        intro f hf
        rcases List.mem_cons.1 hf with rfl | hf
        · simp; omega
        · have := h1 f hf
          simp; omega

theorem kcMultiexp_spec [DecidableEq F] (vec : KcVec G)
    (hs : vec.entries.Pairwise fun a b => a.1 < b.1) (lo hi : Nat) (scalars : List F)
    (sl : Nat) (hsl : scalars.length ≤ sl) (hlen : sl ≤ vec.domainSize)
    (hhi : hi ≤ lo + scalars.length) :
    kcMultiexp vec lo hi scalars sl = some (((vec.entries.filter fun e => decide (lo ≤ e.1 ∧ e.1 < hi)).map
      fun e => scalars.getD (e.1 - lo) 0 • e.2).sum) := by
  unfold kcMultiexp
  rw [if_pos hlen, window_eq_filter _ hs]
  obtain ⟨acc, p, g, e1, e2, e3⟩ := kcFold_spec lo sl scalars
    (vec.entries.filter fun e => decide (lo ≤ e.1 ∧ e.1 < hi)) 0 [] [] rfl hsl (by
      intro e he
      have := (List.mem_filter.1 he).2
      simp only [decide_eq_true_eq] at this
      omega)
  simp only [Option.bind_eq_bind, e1, Option.bind_some, multiexp_eq _ _ e2, Option.pure_def,
    Option.some.injEq]
  rw [e3]; simp

/-! ## batch exponentiation in chunks -/

section Batch

variable {G1 G2 : Type} [AddCommGroup G1] [Module F G1] [AddCommGroup G2] [Module F G2]
variable [DecidableEq F]

/-- what one position contributes -/
def kcEntry (g1 : G1) (g2 : G2) (c1 c2 : F) (v : List F) (pos : Nat) : List (Nat × (G1 × G2)) :=
  if v.getD pos 0 = 0 then [] else [(pos, ((c1 * v.getD pos 0) • g1, (c2 * v.getD pos 0) • g2))]

theorem mapM_eq_some_map {α β : Type} (f : α → Option β) (g : α → β) (l : List α)
    (h : ∀ a ∈ l, f a = some (g a)) : l.mapM f = some (l.map g) := by
  induction l with
  | nil => rfl
  | cons a l ih =>
    rw [List.mapM_cons, h a (by simp), ih (fun b hb => h b (by simp [hb]))]
    rfl

theorem kcBatchExpInternal_spec (g1 : G1) (g2 : G2) (c1 c2 : F) (v : List F) (a b : Nat)
    (hab : a ≤ b) (hb : b ≤ v.length) :
    kcBatchExpInternal g1 g2 c1 c2 v a b
      = some ((List.range' a (b - a)).flatMap (kcEntry g1 g2 c1 c2 v)) := by
  unfold kcBatchExpInternal
  rw [if_pos hab, mapM_eq_some_map _ (kcEntry g1 g2 c1 c2 v)]
  · simp [List.flatMap_def]
  · intro pos hpos
    rw [List.mem_range'_1] at hpos
    have : pos < v.length := by omega
    simp [kcEntry, List.getElem?_eq_getElem this, List.getD_eq_getElem _ _ this]

theorem countNonzero_eq (v : List F) : countNonzero v = v.countP (fun x => decide (x ≠ 0)) := by
  have : ∀ n, v.foldl (fun n x => n + (if x = 0 then 0 else 1)) n
      = n + v.countP (fun x => decide (x ≠ 0)) := by
    induction v with
    | nil => simp
    | cons x v ih =>
      intro n
      rw [List.foldl_cons, ih, List.countP_cons]
      by_cases h : x = 0 <;> simp [h]; omega
  simpa [countNonzero] using this 0

/-- invariant of the chunk loop after the first `i` elements, of which `nz` are nonzero -/
structure ChunkInv (cs nc : Nat) (i nz : Nat) (s : List Nat × Nat × Nat) : Prop where
  len : s.1.length = nc + 1
  lo : 1 ≤ s.2.2
  hi : s.2.2 ≤ nc
  count : nz = cs * (s.2.2 - 1) + s.2.1
  cnt : s.2.2 < nc → s.2.1 < cs
  first : s.1[0]? = some 0
  mono : ∀ j, j + 1 < s.2.2 → ∃ a b, s.1[j]? = some a ∧ s.1[j + 1]? = some b ∧ a ≤ b
  bound : ∀ j, j < s.2.2 → ∃ a, s.1[j]? = some a ∧ a ≤ i

theorem chunkInv_step (cs nc i nz : Nat) (s : List Nat × Nat × Nat) (x : F)
    (h : ChunkInv cs nc i nz s) :
    ChunkInv cs nc (i + 1) (nz + if x = 0 then 0 else 1) (chunkStep cs nc s (x, i)) := by
  obtain ⟨pos, cnt, no⟩ := s
  obtain ⟨h1, h2, h3, h4, h5, h6, h7, h8⟩ := h
  simp only at h1 h2 h3 h4 h5 h6 h7 h8
  simp only [chunkStep]
  generalize hd : (if x = 0 then 0 else 1 : Nat) = d at *
  have hd1 : d ≤ 1 := by rw [← hd]; split <;> omega
  by_cases hc : cnt + d = cs ∧ no < nc
  · rw [if_pos hc]
    have hno : no < pos.length := by omega
    refine ⟨by simp [h1], by simp, by simp only; omega, ?_, ?_, ?_, ?_, ?_⟩
    · simp only
      obtain ⟨k, rfl⟩ : ∃ k, no = k + 1 := ⟨no - 1, by omega⟩
      simp only [Nat.add_sub_cancel, add_zero, Nat.mul_add, mul_one] at h4 ⊢
      omega
    · intro _
      simp only
      have := h5 hc.2
      omega
    · simp only
      rw [List.getElem?_set_ne (by omega)]; exact h6
    · intro j hj
      simp only at hj ⊢
      by_cases hjn : j + 1 = no
      · obtain ⟨a, ha, hai⟩ := h8 j (by omega)
        refine ⟨a, i, ?_, ?_, hai⟩
        · rw [List.getElem?_set_ne (by omega)]; exact ha
        · rw [hjn, List.getElem?_set_self hno]
      · obtain ⟨a, b, ha, hb, hab⟩ := h7 j (by omega)
        refine ⟨a, b, ?_, ?_, hab⟩
        · rw [List.getElem?_set_ne (by omega)]; exact ha
        · rw [List.getElem?_set_ne (by omega)]; exact hb
    · intro j hj
      simp only at hj ⊢
      by_cases hjn : j = no
      · exact ⟨i, by rw [hjn, List.getElem?_set_self hno], by omega⟩
      · obtain ⟨a, ha, hai⟩ := h8 j (by omega)
        exact ⟨a, by rw [List.getElem?_set_ne (by omega)]; exact ha, by omega⟩
  · rw [if_neg hc]
    refine ⟨h1, h2, h3, by simp only; omega, ?_, h6, h7, ?_⟩
    · intro hlt
      simp only at hlt ⊢
      have := h5 hlt
      have : cnt + d ≠ cs := fun e => hc ⟨e, hlt⟩
      omega
    · intro j hj
      obtain ⟨a, ha, hai⟩ := h8 j hj
      exact ⟨a, ha, by omega⟩

theorem chunkInv_fold (cs nc : Nat) (v : List F) (i nz : Nat) (s : List Nat × Nat × Nat)
    (h : ChunkInv cs nc i nz s) :
    ChunkInv cs nc (i + v.length) (nz + v.countP (fun x => decide (x ≠ 0)))
      ((v.zipIdx i).foldl (chunkStep cs nc) s) := by
  induction v generalizing i nz s with
  | nil => simpa using h
  | cons x v ih =>
    rw [List.zipIdx_cons, List.foldl_cons, List.countP_cons]
    have := ih (i + 1) _ _ (chunkInv_step cs nc i nz s x h)
    rw [List.length_cons, show i + (v.length + 1) = i + 1 + v.length by omega]
    convert this using 1
    by_cases hx : x = 0 <;> simp [hx]; omega

/-- the chunk boundaries run from `0` to the length without going back -/
theorem chunkPositions_spec (v : List F) (nc : Nat) (h1 : 1 ≤ nc)
    (hnc : nc = 1 ∨ nc ≤ v.countP (fun x => decide (x ≠ 0))) :
    let p := chunkPositions v (v.countP (fun x => decide (x ≠ 0)) / nc) nc
    p[0]? = some 0 ∧ p[nc]? = some v.length ∧
      ∀ j < nc, ∃ a b, p[j]? = some a ∧ p[j + 1]? = some b ∧ a ≤ b ∧ b ≤ v.length := by
  set nz := v.countP (fun x => decide (x ≠ 0)) with hnz
  set cs := nz / nc with hcs
  have hinit : ChunkInv cs nc 0 0 (List.replicate (nc + 1) 0, 0, 1) := by
    refine ⟨by simp, le_refl _, h1, by simp, ?_, by simp, ?_, ?_⟩
    · intro hlt
      simp only at hlt ⊢
      rcases hnc with h | h
      · omega
      · exact Nat.div_pos h h1
    · intro j hj; simp only at hj; omega
    · intro j hj
      simp only at hj
      obtain rfl : j = 0 := by omega
      exact ⟨0, by simp, le_refl _⟩
  have hfin := chunkInv_fold cs nc v 0 0 _ hinit
  simp only [zero_add] at hfin
  set s := v.zipIdx.foldl (chunkStep cs nc) (List.replicate (nc + 1) 0, 0, 1) with hs
  obtain ⟨i1, i2, i3, i4, i5, i6, i7, i8⟩ := hfin
  rw [← hnz] at i4
  have hno : s.2.2 = nc := by
    by_contra hne
    have hlt : s.2.2 < nc := by omega
    have := i5 hlt
    have h2 : cs * nc ≤ nz := Nat.div_mul_le_self nz nc
    have h3 : cs * s.2.2 ≤ cs * nc := Nat.mul_le_mul_left _ (by omega)
    have h4 : cs * s.2.2 = cs * (s.2.2 - 1) + cs := by
      obtain ⟨k, hk⟩ : ∃ k, s.2.2 = k + 1 := ⟨s.2.2 - 1, by omega⟩
      rw [hk, Nat.add_sub_cancel, Nat.mul_add, mul_one]
    have h5 : cs * (nc - 1) + cs = cs * nc := by
      obtain ⟨k, hk⟩ : ∃ k, nc = k + 1 := ⟨nc - 1, by omega⟩
      rw [hk, Nat.add_sub_cancel, Nat.mul_add, mul_one]
    omega
  intro p
  have hp : p = s.1.set nc v.length := rfl
  rw [hp]
  have hlen : nc < s.1.length := by omega
  refine ⟨?_, by rw [List.getElem?_set_self hlen], ?_⟩
  · rw [List.getElem?_set_ne (by omega)]; exact i6
  · intro j hj
    by_cases hjn : j + 1 = nc
    · obtain ⟨a, ha, hai⟩ := i8 j (by omega)
      refine ⟨a, v.length, ?_, ?_, hai, le_refl _⟩
      · rw [List.getElem?_set_ne (by omega)]; exact ha
      · rw [hjn, List.getElem?_set_self hlen]
    · obtain ⟨a, b, ha, hb, hab⟩ := i7 j (by omega)
      obtain ⟨b', hb', hbi⟩ := i8 (j + 1) (by omega)
      rw [hb] at hb'
      obtain rfl := Option.some.inj hb'
      refine ⟨a, b, ?_, ?_, hab, hbi⟩
      · rw [List.getElem?_set_ne (by omega)]; exact ha
      · rw [List.getElem?_set_ne (by omega)]; exact hb

theorem segments_concat {β : Type} (f : Nat → List β) (p : List Nat) (n : Nat)
    (h0 : p[0]? = some 0)
    (hm : ∀ j < n, ∃ a b, p[j]? = some a ∧ p[j + 1]? = some b ∧ a ≤ b) :
    ∃ e, p[n]? = some e ∧
      ((List.range n).map fun i => (List.range' (p.getD i 0) (p.getD (i + 1) 0 - p.getD i 0)).flatMap f).flatten
        = (List.range e).flatMap f := by
  induction n with
  | zero => exact ⟨0, h0, rfl⟩
  | succ n ih =>
    obtain ⟨e, he, hcat⟩ := ih (fun j hj => hm j (by omega))
    obtain ⟨a, b, ha, hb, hab⟩ := hm n (by omega)
    rw [he] at ha
    obtain rfl := Option.some.inj ha
    refine ⟨b, hb, ?_⟩
    rw [List.range_succ, List.map_append, List.flatten_append, hcat]
    simp only [List.map_cons, List.map_nil, List.flatten_cons, List.flatten_nil, List.append_nil,
      List.getD_eq_getElem?_getD, he, hb, Option.getD_some]
    rw [← List.flatMap_append, List.range_eq_range', List.range_eq_range']
    congr 1
    have := List.range'_append (s := 0) (m := e) (n := b - e) (step := 1)
    simp only [one_mul, zero_add] at this
    rw [this]
    congr 1; omega

theorem kcBatchExp_spec (g1 : G1) (g2 : G2) (c1 c2 : F) (v : List F) (chunks : Nat) :
    kcBatchExp g1 g2 c1 c2 v chunks
      = some ⟨v.length, (List.range v.length).flatMap (kcEntry g1 g2 c1 c2 v)⟩ := by
  unfold kcBatchExp
  simp only [countNonzero_eq]
  set nz := v.countP (fun x => decide (x ≠ 0)) with hnz
  set nc := max 1 (min nz chunks) with hnc
  have hn1 : 1 ≤ nc := le_max_left _ _
  obtain ⟨p0, pn, pm⟩ := chunkPositions_spec v nc hn1 (by
    rcases Nat.lt_or_ge (min nz chunks) 1 with h | h
    · left; omega
    · right; have := min_le_left nz chunks; omega)
  rw [← hnz] at p0 pn pm
  set p := chunkPositions v (nz / nc) nc with hp
  obtain ⟨e, he, hcat⟩ := segments_concat (kcEntry g1 g2 c1 c2 v) p nc p0
    (fun j hj => by obtain ⟨a, b, h1, h2, h3, -⟩ := pm j hj; exact ⟨a, b, h1, h2, h3⟩)
  rw [pn] at he
  obtain rfl := Option.some.inj he
  rw [mapM_eq_some_map _ (fun i => (List.range' (p.getD i 0) (p.getD (i + 1) 0 - p.getD i 0)).flatMap
    (kcEntry g1 g2 c1 c2 v))]
  · simp only [Option.bind_eq_bind, Option.bind_some, hcat]; rfl
  · intro i hi
    obtain ⟨a, b, ha, hb, hab, hbl⟩ := pm i (List.mem_range.1 hi)
    simp only [ha, hb, Option.bind_eq_bind, Option.bind_some, List.getD_eq_getElem?_getD,
      Option.getD_some]
    exact kcBatchExpInternal_spec g1 g2 c1 c2 v a b hab hbl

theorem mem_kcEntry {g1 : G1} {g2 : G2} {c1 c2 : F} {v : List F} {pos : Nat}
    {e : Nat × (G1 × G2)} (h : e ∈ kcEntry g1 g2 c1 c2 v pos) : e.1 = pos := by
  unfold kcEntry at h
  split at h <;> simp_all

theorem kcEntries_sorted (g1 : G1) (g2 : G2) (c1 c2 : F) (v : List F) (n : Nat) :
    ((List.range n).flatMap (kcEntry g1 g2 c1 c2 v)).Pairwise fun a b => a.1 < b.1 := by
  rw [List.pairwise_flatMap]
  refine ⟨fun a _ => ?_, ?_⟩
  · unfold kcEntry; split <;> simp
  · refine List.pairwise_lt_range.imp ?_
    intro a b hab x hx y hy
    rw [mem_kcEntry hx, mem_kcEntry hy]; exact hab

/-- sums over the stored entries in an interval are sums over the interval -/
theorem sum_kcEntries {M : Type} [AddCommMonoid M] (g1 : G1) (g2 : G2) (c1 c2 : F) (v : List F)
    (lo hi : Nat) (hlo : lo ≤ hi) (hhi : hi ≤ v.length) (φ : Nat → G1 × G2 → M) (hφ : ∀ i, φ i 0 = 0) :
    ((((List.range v.length).flatMap (kcEntry g1 g2 c1 c2 v)).filter
        fun e => decide (lo ≤ e.1 ∧ e.1 < hi)).map fun e => φ e.1 e.2).sum
      = ((List.range' lo (hi - lo)).map fun i =>
          φ i ((c1 * v.getD i 0) • g1, (c2 * v.getD i 0) • g2)).sum := by
  have key : ∀ l : List Nat, (((l.flatMap (kcEntry g1 g2 c1 c2 v)).filter
        fun e => decide (lo ≤ e.1 ∧ e.1 < hi)).map fun e => φ e.1 e.2).sum
      = ((l.filter fun i => decide (lo ≤ i ∧ i < hi)).map fun i =>
          φ i ((c1 * v.getD i 0) • g1, (c2 * v.getD i 0) • g2)).sum := by
    intro l
    induction l with
    | nil => rfl
    | cons i l ih =>
      rw [List.flatMap_cons, List.filter_append, List.map_append, List.sum_append, ih]
      by_cases hin : lo ≤ i ∧ i < hi
      · rw [List.filter_cons_of_pos (by simpa using hin), List.map_cons, List.sum_cons]
        congr 1
        unfold kcEntry
        split
        · rename_i h0
          rw [h0]
          simp only [mul_zero, zero_smul]
          exact (hφ i).symm
        · simp [hin]
      · rw [List.filter_cons_of_neg (by simpa using hin)]
        have : (kcEntry g1 g2 c1 c2 v i).filter (fun e => decide (lo ≤ e.1 ∧ e.1 < hi)) = [] := by
          rw [List.filter_eq_nil_iff]
          intro e he
          rw [mem_kcEntry he]
          simpa using hin
        rw [this, List.map_nil, List.sum_nil, zero_add]
  rw [key]
  congr 2
  have hsplit : List.range v.length = List.range' 0 lo ++ (List.range' lo (hi - lo) ++
      List.range' hi (v.length - hi)) := by
    have h1 := List.range'_append (s := lo) (m := hi - lo) (n := v.length - hi) (step := 1)
    rw [show lo + 1 * (hi - lo) = hi by omega, show hi - lo + (v.length - hi) = v.length - lo by omega] at h1
    have h2 := List.range'_append (s := 0) (m := lo) (n := v.length - lo) (step := 1)
    rw [show 0 + 1 * lo = lo by omega, show lo + (v.length - lo) = v.length by omega] at h2
    rw [List.range_eq_range', h1, h2]
  rw [hsplit, List.filter_append, List.filter_append]
  rw [List.filter_eq_nil_iff.2 (by
      intro a ha; rw [List.mem_range'_1] at ha; simp; omega),
    List.filter_eq_self.2 (by
      intro a ha; rw [List.mem_range'_1] at ha; simp; omega),
    List.filter_eq_nil_iff.2 (by
      intro a ha; rw [List.mem_range'_1] at ha; simp; omega)]
  simp

theorem prod_list_sum_smul (l : List Nat) (a b : Nat → F) (g1 : G1) (g2 : G2) :
    (l.map fun i => ((a i) • g1, (b i) • g2)).sum = ((l.map a).sum • g1, (l.map b).sum • g2) := by
  induction l with
  | nil => simp; rfl
  | cons i l ih => simp [ih, add_smul]

theorem innerProduct_eq_range (xs ys : List F) (h : xs.length ≤ ys.length) :
    innerProduct xs ys = ((List.range xs.length).map fun i => xs.getD i 0 * ys.getD i 0).sum := by
  induction xs generalizing ys with
  | nil => simp [innerProduct]
  | cons x xs ih =>
    cases ys with
    | nil => simp at h
    | cons y ys =>
      have := ih ys (by simpa using h)
      rw [innerProduct] at this ⊢
      rw [List.zipWith_cons_cons, List.sum_cons, this, List.length_cons, List.range_succ_eq_map,
        List.map_cons, List.sum_cons, List.map_map]
      simp [Function.comp_def]

/-- batch exponentiation followed by the multi-exponentiation of an interval -/
theorem kcMultiexp_batch (g1 : G1) (g2 : G2) (c1 c2 : F) (v : List F) (chunks lo hi : Nat)
    (hlo : lo ≤ hi) (hhi : hi ≤ v.length) (scalars : List F) (hs : scalars.length = hi - lo) (sl : Nat)
    (hsl : scalars.length ≤ sl) (hsv : sl ≤ v.length) :
    ((kcBatchExp g1 g2 c1 c2 v chunks).bind fun q => kcMultiexp q lo hi scalars sl)
      = some ((c1 * innerProduct scalars (v.drop lo)) • g1, (c2 * innerProduct scalars (v.drop lo)) • g2) := by
  rw [kcBatchExp_spec, Option.bind_some, kcMultiexp_spec _ (kcEntries_sorted ..) _ _ _
    sl hsl hsv (by omega)]
  congr 1
  rw [sum_kcEntries g1 g2 c1 c2 v lo hi hlo hhi (fun i e => scalars.getD (i - lo) 0 • e) (by simp)]
  have : ∀ i, scalars.getD (i - lo) 0 • (((c1 * v.getD i 0) • g1, (c2 * v.getD i 0) • g2) : G1 × G2)
      = ((c1 * (scalars.getD (i - lo) 0 * v.getD i 0)) • g1,
         (c2 * (scalars.getD (i - lo) 0 * v.getD i 0)) • g2) := by
    intro i
    simp only [Prod.smul_mk, smul_smul]
    congr 2 <;> ring
  simp only [this]
  rw [prod_list_sum_smul]
  have hsum : ((List.range' lo (hi - lo)).map fun i => scalars.getD (i - lo) 0 * v.getD i 0).sum
      = innerProduct scalars (v.drop lo) := by
    rw [innerProduct_eq_range _ _ (by simp; omega), hs, List.range'_eq_map_range, List.map_map]
    congr 1
    apply List.map_congr_left
    intro i _
    simp [List.getElem?_drop]
  have hc : ∀ c : F, ((List.range' lo (hi - lo)).map fun i =>
      c * (scalars.getD (i - lo) 0 * v.getD i 0)).sum = c * innerProduct scalars (v.drop lo) := by
    intro c
    rw [← hsum, List.sum_map_mul_left]
  rw [hc, hc]

/-- reading one position of a batch-exponentiated vector -/
theorem kcBatch_get (g1 : G1) (g2 : G2) (c1 c2 : F) (v : List F) (i : Nat) (hi : i < v.length) :
    (⟨v.length, (List.range v.length).flatMap (kcEntry g1 g2 c1 c2 v)⟩ : KcVec (G1 × G2)).get i
      = ((c1 * v.getD i 0) • g1, (c2 * v.getD i 0) • g2) := by
  unfold KcVec.get
  simp only
  have key : ∀ l : List Nat, ((l.flatMap (kcEntry g1 g2 c1 c2 v)).lookup i).getD 0
      = if i ∈ l then ((c1 * v.getD i 0) • g1, (c2 * v.getD i 0) • g2) else 0 := by
    intro l
    induction l with
    | nil => simp
    | cons j l ih =>
      rw [List.flatMap_cons]
      unfold kcEntry at ih ⊢
      by_cases hij : i = j
      · subst hij
        by_cases h0 : v.getD i 0 = 0
        · rw [if_pos h0, List.nil_append, ih, h0]
          simp only [mul_zero, zero_smul]
          split_ifs <;> rfl
        · rw [if_neg h0, List.cons_append, List.lookup_cons]
          simp
      · by_cases h0 : v.getD j 0 = 0
        · rw [if_pos h0, List.nil_append, ih]
          simp [hij]
        · rw [if_neg h0, List.cons_append, List.nil_append, List.lookup_cons]
          have : (i == j) = false := by simpa using hij
          rw [this]
          simp only [ih, List.mem_cons, hij, false_or]
  rw [key, if_pos (List.mem_range.2 hi)]

end Batch

end Crypto3Zk
