import Verif.Spec.EvalStorage
import Verif.Lemmas.OrderedMap
import Mathlib.Data.List.Induction
import Mathlib.Tactic.Ring

set_option linter.unusedSectionVars false

namespace Crypto3Zk

variable {F : Type} [Field F]

open OMap

namespace EvalStorage

theorem getPoly_insert (z : EvalStorage F) (b : Nat) (batch : List (List F)) (b' p : Nat) :
    getPoly (OMap.insert z b batch) b' p = if b' = b then batch[p]? else getPoly z b' p := by
  unfold getPoly
  rw [find_insert]
  split_ifs <;> simp

theorem getD_getPoly (z : EvalStorage F) (b p : Nat) : (OMap.getD z b [])[p]? = getPoly z b p := by
  unfold getPoly OMap.getD
  cases OMap.find z b <;> simp

theorem getPoly_setBatchSize (z : EvalStorage F) (b n b' p : Nat) :
    getPoly (setBatchSize z b n) b' p
      = if b' = b then (if p < n then some [] else none) else getPoly z b' p := by
  unfold setBatchSize
  rw [getPoly_insert]
  split_ifs <;> simp_all [List.getElem?_replicate]

theorem setPointsNumber_isSome (z : EvalStorage F) (b p n : Nat) :
    (setPointsNumber z b p n).isSome ↔ (getPoly z b p).isSome := by
  unfold setPointsNumber
  rw [← getD_getPoly]
  simp only []
  split_ifs with h <;> simp [h]

theorem getPoly_setPointsNumber {z z' : EvalStorage F} {b p n : Nat}
    (h : setPointsNumber z b p n = some z') (b' p' : Nat) :
    getPoly z' b' p' = if b' = b ∧ p' = p then some (List.replicate n 0) else getPoly z b' p' := by
  unfold setPointsNumber at h
  simp only [] at h
  split_ifs at h with hp
  cases h
  rw [getPoly_insert]
  by_cases hb : b' = b
  · subst hb
    simp only [if_true, true_and, List.getElem?_set, ← getD_getPoly]
    by_cases hpp : p' = p
    · subst hpp; simp [hp]
    · simp [hpp, Ne.symm hpp]
  · simp [hb]

theorem set_isSome (z : EvalStorage F) (b p j : Nat) (v : F) :
    (set z b p j v).isSome ↔ (get z b p j).isSome := by
  unfold set get
  simp only [getD_getPoly]
  cases h : getPoly z b p with
  | none => simp
  | some l =>
    simp only [Option.bind_eq_bind, Option.bind_some]
    split_ifs with hj <;> simp [hj]

theorem getPoly_set {z z' : EvalStorage F} {b p j : Nat} {v : F}
    (h : set z b p j v = some z') (b' p' : Nat) :
    getPoly z' b' p' = if b' = b ∧ p' = p then (getPoly z b p).map (fun l => l.set j v)
      else getPoly z b' p' := by
  unfold set at h
  simp only [getD_getPoly] at h
  cases hl : getPoly z b p with
  | none => simp [hl] at h
  | some l =>
    simp only [hl, Option.bind_eq_bind, Option.bind_some] at h
    split_ifs at h with hj
    cases h
    rw [getPoly_insert]
    have hlen : p < (OMap.getD z b []).length := by
      rw [← getD_getPoly] at hl
      exact (List.getElem?_eq_some_iff.1 hl).1
    by_cases hb : b' = b
    · subst hb
      simp only [if_true, true_and, List.getElem?_set]
      by_cases hpp : p' = p
      · subst hpp; simp [hlen]
      · simp [hpp, Ne.symm hpp, getD_getPoly]
    · simp [hb]

end EvalStorage

open EvalStorage in
/-- one call keeps the storage and its specification in step -/
theorem storage_step (op : StorageOp F) (h : List (StorageOp F)) (z z' : EvalStorage F)
    (hp : ∀ b p, z.pointsNumber b p = lastPoints b p h)
    (hg : ∀ b p j, z.get b p j = lastWritten b p j h) (ha : op.apply z = some z') :
    (∀ b p, z'.pointsNumber b p = lastPoints b p (op :: h)) ∧
      ∀ b p j, z'.get b p j = lastWritten b p j (op :: h) := by
  cases op with
  | setBatchSize b n =>
    simp only [StorageOp.apply, Option.some.injEq] at ha
    subst ha
    constructor
    · intro b' p
      have := hp b' p
      unfold pointsNumber at this ⊢
      rw [getPoly_setBatchSize, lastPoints]
      by_cases hb : b' = b
      · subst hb; simp
      · simp [hb, Ne.symm hb, this]
    · intro b' p j
      have := hg b' p j
      unfold EvalStorage.get at this ⊢
      rw [getPoly_setBatchSize, lastWritten]
      by_cases hb : b' = b
      · subst hb
        simp only [if_true]
        split_ifs <;> simp
      · simp [hb, Ne.symm hb, ← this]
  | setPointsNumber b p n =>
    have hz := getPoly_setPointsNumber ha
    constructor
    · intro b' p'
      have := hp b' p'
      unfold pointsNumber at this ⊢
      rw [hz, lastPoints]
      by_cases hb : b' = b ∧ p' = p
      · simp [hb.1, hb.2]
      · rw [if_neg hb, if_neg (fun h => hb ⟨h.1.symm, h.2.symm⟩), this]
    · intro b' p' j
      have := hg b' p' j
      unfold EvalStorage.get at this ⊢
      rw [hz, lastWritten]
      by_cases hb : b' = b ∧ p' = p
      · simp [hb.1, hb.2, List.getElem?_replicate]
      · rw [if_neg hb, if_neg (fun h => hb ⟨h.1.symm, h.2.symm⟩), this]
  | set b p j v =>
    have hz := getPoly_set ha
    have hs : (EvalStorage.get z b p j).isSome := by
      rw [← set_isSome z b p j v]
      show ((StorageOp.set b p j v).apply z).isSome
      rw [ha]; rfl
    constructor
    · intro b' p'
      have := hp b' p'
      unfold pointsNumber at this ⊢
      rw [hz, lastPoints]
      by_cases hb : b' = b ∧ p' = p
      · obtain ⟨rfl, rfl⟩ := hb
        rw [← this]
        simp only [and_self, if_true, Option.map_map]
        congr 1
        funext l; simp
      · rw [if_neg hb, this]
    · intro b' p' j'
      have := hg b' p' j'
      unfold EvalStorage.get at this hs ⊢
      rw [hz, lastWritten]
      by_cases hb : b' = b ∧ p' = p
      · obtain ⟨rfl, rfl⟩ := hb
        cases hl : getPoly z b' p' with
        | none => simp [hl] at hs
        | some l =>
          rw [← this]
          simp only [hl, and_self, if_true, true_and, Option.map_some, Option.bind_eq_bind,
            Option.bind_some, List.getElem?_set] at hs ⊢
          by_cases hj : j = j'
          · subst hj
            have hs' : j < l.length := by simpa using hs
            simp [hs']
          · simp [hj]
      · rw [if_neg hb, if_neg (fun h => hb ⟨h.1.symm, h.2.1.symm⟩), this]

theorem storage_run (ops : List (StorageOp F)) (z : EvalStorage F)
    (h : runStorage ops [] = some z) :
    (∀ b p, z.pointsNumber b p = lastPoints b p ops.reverse) ∧
      ∀ b p j, z.get b p j = lastWritten b p j ops.reverse := by
  induction ops using List.reverseRecOn generalizing z with
  | nil =>
    simp only [runStorage, List.foldlM_nil, Option.pure_def, Option.some.injEq] at h
    subst h
    exact ⟨fun _ _ => rfl, fun _ _ _ => rfl⟩
  | append_singleton ops op ih =>
    simp only [runStorage, List.foldlM_append, List.foldlM_cons, List.foldlM_nil,
      Option.bind_eq_bind] at h
    obtain ⟨z1, h1, h2⟩ := Option.bind_eq_some_iff.1 h
    have h3 : op.apply z1 = some z := by simpa using h2
    obtain ⟨hp, hg⟩ := ih z1 h1
    rw [List.reverse_append]
    exact storage_step op ops.reverse z1 z hp hg h3

/-! ## the container -/

namespace PolysEvaluator

theorem resizePoints_self {l : List (List F)} {n : Nat} (h : l.length = n) :
    resizePoints l n = l := by
  simp [resizePoints, ← h]

theorem resizePoints_nil (n : Nat) : resizePoints ([] : List (List F)) n = List.replicate n [] := by
  simp [resizePoints]

theorem evalAt_spec (k i : Nat) (f : List F) (xs : List F) : ∀ (j : Nat) (z : EvalStorage F)
    (batch : List (List F)) (ys : List F), OMap.find z k = some batch → batch[i]? = some ys →
    ys.length = j + xs.length →
    ∃ z', evalAt k i f j xs z = some z' ∧
      OMap.find z' k = some (batch.set i (ys.take j ++ xs.map (evalPoly f))) ∧
      ∀ k', k' ≠ k → OMap.find z' k' = OMap.find z k' := by
  induction xs with
  | nil =>
    intro j z batch ys hz hb hl
    refine ⟨z, rfl, ?_, fun _ _ => rfl⟩
    rw [hz]
    have : ys.take j = ys := List.take_of_length_le (by simpa using hl.le)
    rw [this]
    simp only [List.map_nil, List.append_nil, Option.some.injEq]
    obtain ⟨hi, rfl⟩ := List.getElem?_eq_some_iff.1 hb
    exact (List.set_getElem_self hi).symm
  | cons x xs ih =>
    intro j z batch ys hz hb hl
    have hj : j < ys.length := by simp at hl; omega
    obtain ⟨hi, hbi⟩ := List.getElem?_eq_some_iff.1 hb
    have hset : EvalStorage.set z k i j (evalPoly f x)
        = some (OMap.insert z k (batch.set i (ys.set j (evalPoly f x)))) := by
      unfold EvalStorage.set
      have : OMap.getD z k [] = batch := by simp [OMap.getD, hz]
      simp only [this, hb, Option.bind_eq_bind, Option.bind_some, if_pos hj]
    obtain ⟨z', h1, h2, h3⟩ := ih (j + 1)
      (OMap.insert z k (batch.set i (ys.set j (evalPoly f x))))
      (batch.set i (ys.set j (evalPoly f x))) (ys.set j (evalPoly f x))
      (by rw [find_insert]; simp) (by simp [hi]) (by simp at hl ⊢; omega)
    refine ⟨z', ?_, ?_, ?_⟩
    · rw [evalAt, hset]; exact h1
    · rw [h2, List.set_set]
      congr 2
      rw [List.take_add_one, List.take_set_of_le (Nat.le_refl j)]
      simp [hj]
    · intro k' hk'
      rw [h3 k' hk', find_insert, if_neg hk']

theorem evalBatch_spec (k : Nat) (pts : List (List F)) (fs : List (List F)) :
    ∀ (i : Nat) (z : EvalStorage F) (batch : List (List F)), OMap.find z k = some batch →
    batch.length = i + fs.length → pts.length = batch.length →
    ∃ z', evalBatch k pts i fs z = some z' ∧
      OMap.find z' k = some (batch.take i
        ++ List.zipWith (fun f xs => xs.map (evalPoly f)) fs (pts.drop i)) ∧
      ∀ k', k' ≠ k → OMap.find z' k' = OMap.find z k' := by
  induction fs with
  | nil =>
    intro i z batch hz hl hp
    refine ⟨z, rfl, ?_, fun _ _ => rfl⟩
    rw [hz, List.take_of_length_le (by simpa using hl.le)]
    simp
  | cons f fs ih =>
    intro i z batch hz hl hp
    have hib : i < batch.length := by simp at hl; omega
    have hip : i < pts.length := by omega
    have hspn : EvalStorage.setPointsNumber z k i pts[i].length
        = some (OMap.insert z k (batch.set i (List.replicate pts[i].length 0))) := by
      unfold EvalStorage.setPointsNumber
      have : OMap.getD z k [] = batch := by simp [OMap.getD, hz]
      simp only [this, if_pos hib]
    obtain ⟨z1, h1, h2, h3⟩ := evalAt_spec k i f pts[i] 0
      (OMap.insert z k (batch.set i (List.replicate pts[i].length 0)))
      (batch.set i (List.replicate pts[i].length 0)) (List.replicate pts[i].length 0)
      (by rw [find_insert]; simp) (by simp [hib]) (by simp)
    rw [List.set_set] at h2
    obtain ⟨z', h4, h5, h6⟩ := ih (i + 1) z1 _ h2 (by simp at hl ⊢; omega) (by simpa using hp)
    refine ⟨z', ?_, ?_, ?_⟩
    · rw [evalBatch]
      simp only [List.getElem?_eq_getElem hip, Option.bind_eq_bind, Option.bind_some, hspn, h1]
      exact h4
    · rw [h5]
      congr 1
      rw [List.take_add_one, List.take_set_of_le (Nat.le_refl i)]
      conv_rhs => rw [List.drop_eq_getElem_cons hip, List.zipWith_cons_cons]
      simp [hib]
    · intro k' hk'
      rw [h6 k' hk', h3 k' hk', find_insert, if_neg hk']

theorem evalBatches_spec (points : OMap (List (List F))) (polys : OMap (List (List F))) :
    ∀ (z : EvalStorage F), Sorted polys →
    (∀ k fs, polys.find k = some fs → ∃ pts, points.find k = some pts ∧ pts.length = fs.length) →
    ∃ z', evalBatches points polys z = some z' ∧ ∀ k, OMap.find z' k =
      match polys.find k with
      | some fs => some (List.zipWith (fun f xs => xs.map (evalPoly f)) fs (points.getD k []))
      | none => OMap.find z k := by
  induction polys with
  | nil => intro z _ _; exact ⟨z, rfl, fun _ => rfl⟩
  | cons e rest ih =>
    intro z hs hpts
    obtain ⟨a, fs⟩ := e
    obtain ⟨hna, hs'⟩ := hs.cons
    obtain ⟨pts, hp1, hp2⟩ := hpts a fs (by simp [OMap.find])
    obtain ⟨z1, h1, h2, h3⟩ := evalBatch_spec a pts fs 0 (EvalStorage.setBatchSize z a fs.length)
      (List.replicate fs.length []) (by simp [EvalStorage.setBatchSize, find_insert])
      (by simp) (by simp [hp2])
    obtain ⟨z', h4, h5⟩ := ih z1 hs' (by
      intro k gs hk
      have hka : a ≠ k := by rintro rfl; rw [hna] at hk; simp at hk
      exact hpts k gs (by rw [OMap.find, if_neg hka]; exact hk))
    refine ⟨z', ?_, ?_⟩
    · rw [evalBatches]
      simp only [hp1, Option.bind_eq_bind, Option.bind_some, hp2, true_or, if_true, h1]
      exact h4
    · intro k
      rw [h5 k]
      by_cases hka : a = k
      · subst hka
        rw [hna]
        simp only [OMap.find, if_true]
        rw [h2]
        simp [OMap.getD, hp1]
      · rw [OMap.find, if_neg hka]
        cases OMap.find rest k with
        | some gs => rfl
        | none =>
          simp only
          rw [h3 k (Ne.symm hka)]
          simp [EvalStorage.setBatchSize, find_insert, Ne.symm hka]

theorem evalBatches_missing (points : OMap (List (List F))) (polys : OMap (List (List F))) (k : Nat)
    (hk : k ∈ polys.keys) (hp : points.find k = none) :
    ∀ (z : EvalStorage F), evalBatches points polys z = none := by
  induction polys with
  | nil => simp [OMap.keys] at hk
  | cons e rest ih =>
    intro z
    obtain ⟨a, fs⟩ := e
    rw [evalBatches]
    by_cases hka : a = k
    · subst hka; simp [hp]
    · have hk' : k ∈ OMap.keys rest := by
        simp only [OMap.keys, List.map_cons, List.mem_cons] at hk
        rcases hk with rfl | hk
        · exact absurd rfl hka
        · exact hk
      cases points.find a with
      | none => simp
      | some pts =>
        simp only [Option.bind_eq_bind, Option.bind_some]
        split_ifs
        · cases evalBatch a pts 0 fs (EvalStorage.setBatchSize z a fs.length) with
          | none => simp
          | some z1 => simp [ih hk' z1]
        · rfl

end PolysEvaluator

/-- batch `k` is locked after a history -/
def lockedSpec (k : Nat) (h : List (ContainerOp F)) : Prop :=
  committed k h ∨ ∃ n, ContainerOp.batchSize k n ∈ h

/-- what the container holds after a history -/
structure ContainerInv (h : List (ContainerOp F)) (s : PolysEvaluator F) : Prop where
  z : s.z = []
  polys : ∀ k, s.polys.getD k [] = appended k h
  keys : ∀ k, k ∈ s.polys.keys ↔ committed k h ∨ ∃ fs, ContainerOp.append k fs ∈ h
  sorted : s.polys.Sorted
  psorted : s.points.Sorted
  locked : ∀ k, s.locked.getD k false = true ↔ lockedSpec k h
  unlocked : ∀ k, ¬ lockedSpec k h → s.points.find k = none ∧ ∀ i, requested k i h = []
  points : ∀ k, noResize k h → committed k h →
    s.points.find k = some ((List.range (appended k h).length).map fun i => requested k i h)
  sized : ∀ k n, ¬ committed k h → ContainerOp.batchSize k n ∈ h →
    (∀ n', ContainerOp.batchSize k n' ∈ h → n' = n) →
    s.points.find k = some ((List.range n).map fun i => requested k i h)

theorem appended_snoc (k : Nat) (h : List (ContainerOp F)) (op : ContainerOp F) :
    appended k (h ++ [op]) = appended k h ++ appended k [op] := by
  simp [appended]

theorem requested_snoc (k i : Nat) (h : List (ContainerOp F)) (op : ContainerOp F) :
    requested k i (h ++ [op]) = requested k i h ++ requested k i [op] := by
  simp [requested]

theorem committed_snoc (k : Nat) (h : List (ContainerOp F)) (op : ContainerOp F) :
    committed k (h ++ [op]) ↔ committed k h ∨ op = .commit k := by
  simp [committed, eq_comm]

theorem lockedSpec_snoc (k : Nat) (h : List (ContainerOp F)) (op : ContainerOp F) :
    lockedSpec k (h ++ [op]) ↔ lockedSpec k h ∨ op = .commit k ∨ ∃ n, op = .batchSize k n := by
  simp only [lockedSpec, committed_snoc, List.mem_append, List.mem_singleton, exists_or]
  constructor
  · rintro ((h | h) | h | ⟨n, h⟩)
    · exact Or.inl (Or.inl h)
    · exact Or.inr (Or.inl h)
    · exact Or.inl (Or.inr h)
    · exact Or.inr (Or.inr ⟨n, h.symm⟩)
  · rintro ((h | h) | h | ⟨n, h⟩)
    · exact Or.inl (Or.inl h)
    · exact Or.inr (Or.inl h)
    · exact Or.inl (Or.inr h)
    · exact Or.inr (Or.inr ⟨n, h.symm⟩)

theorem containerInv_nil : ContainerInv ([] : List (ContainerOp F)) PolysEvaluator.empty where
  z := rfl
  polys := fun _ => rfl
  keys := by simp [PolysEvaluator.empty, OMap.keys, committed]
  sorted := sorted_nil
  psorted := sorted_nil
  locked := by simp [PolysEvaluator.empty, lockedSpec, committed]
  unlocked := fun _ _ => ⟨rfl, fun _ => rfl⟩
  points := by simp [committed]
  sized := by simp

theorem container_step (op : ContainerOp F) (h : List (ContainerOp F)) (s s' : PolysEvaluator F)
    (inv : ContainerInv h s) (ha : op.apply s = some s') : ContainerInv (h ++ [op]) s' := by
  cases op with
  | append k fs =>
    have hnl : ¬ lockedSpec k h := by
      rw [← inv.locked]
      intro hl
      simp only [ContainerOp.apply, PolysEvaluator.appendToBatch] at ha
      cases hf : s.locked.find k with
      | none => simp [OMap.getD, hf] at hl
      | some b => simp [OMap.getD, hf] at hl ha; simp [hl] at ha
    obtain ⟨locked', hlock, hs'⟩ : ∃ locked' : OMap Bool,
        (∀ k', locked'.getD k' false = s.locked.getD k' false) ∧
        s' = ⟨s.z, s.polys.insert k (s.polys.getD k [] ++ fs), locked', s.points⟩ := by
      simp only [ContainerOp.apply, PolysEvaluator.appendToBatch] at ha
      split_ifs at ha
      cases ha
      refine ⟨_, ?_, rfl⟩
      intro k'
      cases hf : s.locked.find k with
      | none =>
        simp only [getD_insert]
        split_ifs with hk
        · subst hk; simp [OMap.getD, hf]
        · rfl
      | some b => rfl
    subst hs'
    have hreq : ∀ k' i, requested k' i (h ++ [.append k fs]) = requested k' i h := by
      intro k' i; rw [requested_snoc]; simp [requested]
    have hcom : ∀ k', committed k' (h ++ [.append k fs]) ↔ committed k' h := by
      intro k'; rw [committed_snoc]; simp
    have hls : ∀ k', lockedSpec k' (h ++ [.append k fs]) ↔ lockedSpec k' h := by
      intro k'; rw [lockedSpec_snoc]; simp
    constructor
    · exact inv.z
    · intro k'
      simp only [getD_insert, appended_snoc]
      have := inv.polys k'
      by_cases hk : k' = k
      · subst hk; simp [appended, ← this]; simp [appended] at this; rw [this]
      · simp only [appended, if_neg hk, this, List.flatMap_cons, if_neg (Ne.symm hk)]
        simp
    · intro k'
      rw [mem_keys_insert, inv.keys, hcom]
      simp only [List.mem_append, List.mem_singleton, exists_or, ContainerOp.append.injEq]
      constructor
      · rintro (rfl | h | h)
        · exact Or.inr (Or.inr ⟨fs, rfl, rfl⟩)
        · exact Or.inl h
        · exact Or.inr (Or.inl h)
      · rintro (h | h | ⟨_, h, -⟩)
        · exact Or.inr (Or.inl h)
        · exact Or.inr (Or.inr h)
        · exact Or.inl h
    · exact sorted_insert _ _ _ inv.sorted
    · exact inv.psorted
    · intro k'; rw [hls, ← inv.locked]; simp only [hlock]
    · intro k' hk'
      rw [hls] at hk'
      simpa only [hreq] using inv.unlocked k' hk'
    · intro k' hn hc
      rw [hcom] at hc
      have hkk : k' ≠ k := by rintro rfl; exact hnl (Or.inl hc)
      have happ : appended k' (h ++ [.append k fs]) = appended k' h := by
        rw [appended_snoc]; simp [appended, Ne.symm hkk]
      simp only [hreq, happ]
      exact inv.points k' (fun n hn' => hn n (by simp [hn'])) hc
    · intro k' n hc hb hu
      rw [hcom] at hc
      simp only [hreq]
      exact inv.sized k' n hc (by simpa using hb) (fun n' hn' => hu n' (by simp [hn']))
  | commit k =>
    simp only [ContainerOp.apply, PolysEvaluator.stateCommitted, Option.some.injEq] at ha
    subst ha
    have hreq : ∀ k' i, requested k' i (h ++ [.commit k]) = requested k' i h := by
      intro k' i; rw [requested_snoc]; simp [requested]
    have happ : ∀ k', appended k' (h ++ [.commit k]) = appended k' h := by
      intro k'; rw [appended_snoc]; simp [appended]
    have hcom : ∀ k', committed k' (h ++ [.commit k]) ↔ committed k' h ∨ k' = k := by
      intro k'; rw [committed_snoc]; simp [eq_comm]
    have hls : ∀ k', lockedSpec k' (h ++ [.commit k]) ↔ lockedSpec k' h ∨ k' = k := by
      intro k'; rw [lockedSpec_snoc]; simp [eq_comm]
    constructor
    · exact inv.z
    · intro k'
      simp only [getD_insert, happ, ← inv.polys]
      split_ifs with hk
      · rw [hk]
      · rfl
    · intro k'
      rw [mem_keys_insert, inv.keys, hcom]
      simp; tauto
    · exact sorted_insert _ _ _ inv.sorted
    · exact sorted_insert _ _ _ inv.psorted
    · intro k'; rw [hls, getD_insert, ← inv.locked]; split_ifs with hk <;> simp [hk]
    · intro k' hk'
      rw [hls] at hk'
      push Not at hk'
      simp only [find_insert, if_neg hk'.2, hreq]
      exact inv.unlocked k' hk'.1
    · intro k' hn hc
      have hn' : noResize k' h := fun n hn' => hn n (by simp [hn'])
      simp only [happ, hreq, find_insert]
      by_cases hk : k' = k
      · subst hk
        rw [if_pos rfl, getD_insert, if_pos rfl, inv.polys]
        by_cases hc' : committed k' h
        · have := inv.points k' hn' hc'
          rw [OMap.getD, this]
          simp only [Option.getD_some]
          congr 1
          exact PolysEvaluator.resizePoints_self (by simp)
        · have hl : ¬ lockedSpec k' h := by
            rintro (h1 | ⟨n, h1⟩)
            · exact hc' h1
            · exact hn' n h1
          obtain ⟨h1, h2⟩ := inv.unlocked k' hl
          rw [OMap.getD, h1]
          simp only [Option.getD_none, PolysEvaluator.resizePoints_nil, h2]
          simp
      · rw [if_neg hk]
        exact inv.points k' hn' (((hcom k').1 hc).resolve_right hk)
    · intro k' n hc hb hu
      rw [hcom] at hc
      push Not at hc
      simp only [find_insert, if_neg hc.2, hreq]
      exact inv.sized k' n hc.1 (by simpa using hb) (fun n' hn' => hu n' (by simp [hn']))
  | points k xs =>
    simp only [ContainerOp.apply, PolysEvaluator.appendEvalPoints] at ha
    split_ifs at ha with hl
    cases ha
    have hlk : lockedSpec k h := (inv.locked k).1 hl
    have happ : ∀ k', appended k' (h ++ [.points k xs]) = appended k' h := by
      intro k'; rw [appended_snoc]; simp [appended]
    have hcom : ∀ k', committed k' (h ++ [.points k xs]) ↔ committed k' h := by
      intro k'; rw [committed_snoc]; simp
    have hls : ∀ k', lockedSpec k' (h ++ [.points k xs]) ↔ lockedSpec k' h := by
      intro k'; rw [lockedSpec_snoc]; simp
    have hreq : ∀ k' i, requested k' i (h ++ [.points k xs])
        = requested k' i h ++ if k' = k then xs else [] := by
      intro k' i; rw [requested_snoc]; simp [requested, eq_comm]
    have key : ∀ k' (l : List Nat), s.points.find k' = some (l.map fun i => requested k' i h) →
        (s.points.insert k ((s.points.getD k []).map (· ++ xs))).find k'
          = some (l.map fun i => requested k' i (h ++ [.points k xs])) := by
      intro k' l hk'
      simp only [find_insert, hreq]
      by_cases hk : k' = k
      · subst hk; simp [OMap.getD, hk']
      · simp [hk, hk']
    constructor
    · exact inv.z
    · intro k'; rw [happ]; exact inv.polys k'
    · intro k'; rw [inv.keys, hcom]; simp
    · exact inv.sorted
    · exact sorted_insert _ _ _ inv.psorted
    · intro k'; rw [hls]; exact inv.locked k'
    · intro k' hk'
      rw [hls] at hk'
      have hkk : k' ≠ k := by rintro rfl; exact hk' hlk
      simp only [find_insert, if_neg hkk, hreq, List.append_nil]
      exact inv.unlocked k' hk'
    · intro k' hn hc
      rw [happ]
      exact key k' _ (inv.points k' (fun n hn' => hn n (by simp [hn'])) ((hcom k').1 hc))
    · intro k' n hc hb hu
      rw [hcom] at hc
      exact key k' _ (inv.sized k' n hc (by simpa using hb) (fun n' hn' => hu n' (by simp [hn'])))
  | pointsTo k i xs =>
    simp only [ContainerOp.apply, PolysEvaluator.appendEvalPointsTo] at ha
    split_ifs at ha with hl
    cases hpi : (s.points.getD k [])[i]? with
    | none => simp [hpi] at ha
    | some l0 =>
    simp only [hpi, Option.some.injEq] at ha
    subst ha
    have hlk : lockedSpec k h := (inv.locked k).1 hl
    have happ : ∀ k', appended k' (h ++ [.pointsTo k i xs]) = appended k' h := by
      intro k'; rw [appended_snoc]; simp [appended]
    have hcom : ∀ k', committed k' (h ++ [.pointsTo k i xs]) ↔ committed k' h := by
      intro k'; rw [committed_snoc]; simp
    have hls : ∀ k', lockedSpec k' (h ++ [.pointsTo k i xs]) ↔ lockedSpec k' h := by
      intro k'; rw [lockedSpec_snoc]; simp
    have hreq : ∀ k' i', requested k' i' (h ++ [.pointsTo k i xs])
        = requested k' i' h ++ if k' = k ∧ i' = i then xs else [] := by
      intro k' i'; rw [requested_snoc]; simp [requested, eq_comm]
    have key : ∀ k' (n : Nat),
        s.points.find k' = some ((List.range n).map fun i => requested k' i h) →
        (s.points.insert k ((s.points.getD k []).set i (l0 ++ xs))).find k'
          = some ((List.range n).map fun i' => requested k' i' (h ++ [.pointsTo k i xs])) := by
      intro k' n hk'
      simp only [find_insert, hreq]
      by_cases hk : k' = k
      · subst hk
        simp only [if_true, OMap.getD, hk', Option.getD_some, true_and, Option.some.injEq]
        simp only [OMap.getD, hk', Option.getD_some] at hpi
        apply List.ext_getElem?
        intro j
        rw [List.getElem?_set]
        by_cases hij : i = j
        · subst hij
          obtain ⟨hlt, hv⟩ := List.getElem?_eq_some_iff.1 hpi
          simp at hlt hv
          simp [hlt, hv]
        · simp [hij, Ne.symm hij, List.getElem?_map]
          by_cases hj : j < n
          · simp [hj, Ne.symm hij]
          · simp [hj]
      · simp [hk, hk']
    constructor
    · exact inv.z
    · intro k'; rw [happ]; exact inv.polys k'
    · intro k'; rw [inv.keys, hcom]; simp
    · exact inv.sorted
    · exact sorted_insert _ _ _ inv.psorted
    · intro k'; rw [hls]; exact inv.locked k'
    · intro k' hk'
      rw [hls] at hk'
      have hkk : k' ≠ k := by rintro rfl; exact hk' hlk
      simp only [find_insert, if_neg hkk, hreq, hkk, false_and, if_false, List.append_nil]
      exact inv.unlocked k' hk'
    · intro k' hn hc
      rw [happ]
      exact key k' _ (inv.points k' (fun n hn' => hn n (by simp [hn'])) ((hcom k').1 hc))
    · intro k' n hc hb hu
      rw [hcom] at hc
      exact key k' _ (inv.sized k' n hc (by simpa using hb) (fun n' hn' => hu n' (by simp [hn'])))
  | batchSize k n =>
    simp only [ContainerOp.apply, PolysEvaluator.setBatchSize, Option.some.injEq] at ha
    subst ha
    have hreq : ∀ k' i, requested k' i (h ++ [.batchSize k n]) = requested k' i h := by
      intro k' i; rw [requested_snoc]; simp [requested]
    have happ : ∀ k', appended k' (h ++ [.batchSize k n]) = appended k' h := by
      intro k'; rw [appended_snoc]; simp [appended]
    have hcom : ∀ k', committed k' (h ++ [.batchSize k n]) ↔ committed k' h := by
      intro k'; rw [committed_snoc]; simp
    have hls : ∀ k', lockedSpec k' (h ++ [.batchSize k n]) ↔ lockedSpec k' h ∨ k' = k := by
      intro k'; rw [lockedSpec_snoc]; simp [eq_comm]
    constructor
    · exact inv.z
    · intro k'; rw [happ]; exact inv.polys k'
    · intro k'; rw [inv.keys, hcom]; simp
    · exact inv.sorted
    · exact sorted_insert _ _ _ inv.psorted
    · intro k'; rw [hls, getD_insert, ← inv.locked]; split_ifs with hk <;> simp [hk]
    · intro k' hk'
      rw [hls] at hk'
      push Not at hk'
      simp only [find_insert, if_neg hk'.2, hreq]
      exact inv.unlocked k' hk'.1
    · intro k' hn hc
      have hk : k' ≠ k := by rintro rfl; exact hn n (by simp)
      simp only [find_insert, if_neg hk, hreq, happ]
      exact inv.points k' (fun n hn' => hn n (by simp [hn'])) ((hcom k').1 hc)
    · intro k' n' hc hb hu
      rw [hcom] at hc
      simp only [hreq, find_insert]
      by_cases hk : k' = k
      · subst hk
        have hnn : n = n' := hu n (by simp)
        subst hnn
        rw [if_pos rfl]
        by_cases hb' : ContainerOp.batchSize k' n ∈ h
        · have := inv.sized k' n hc hb' (fun n' hn' => hu n' (by simp [hn']))
          rw [OMap.getD, this]
          simp only [Option.getD_some]
          congr 1
          exact PolysEvaluator.resizePoints_self (by simp)
        · have hl : ¬ lockedSpec k' h := by
            rintro (h1 | ⟨m, h1⟩)
            · exact hc h1
            · have := hu m (by simp [h1]); subst this; exact hb' h1
          obtain ⟨h1, h2⟩ := inv.unlocked k' hl
          rw [OMap.getD, h1]
          simp only [Option.getD_none, PolysEvaluator.resizePoints_nil, h2]
          simp
      · rw [if_neg hk]
        have hb' : ContainerOp.batchSize k' n' ∈ h := by
          rcases List.mem_append.1 hb with h | h
          · exact h
          · simp at h; exact absurd h.1 hk
        exact inv.sized k' n' hc hb' (fun m hm => hu m (by simp [hm]))

theorem runContainer_snoc (h : List (ContainerOp F)) (op : ContainerOp F) :
    runContainer (h ++ [op]) = (runContainer h).bind fun s => op.apply s := by
  unfold runContainer
  rw [List.foldlM_append]
  cases List.foldlM ContainerOp.apply PolysEvaluator.empty h <;> simp

theorem container_run (h : List (ContainerOp F)) (s : PolysEvaluator F)
    (hs : runContainer h = some s) : ContainerInv h s := by
  induction h using List.reverseRecOn generalizing s with
  | nil =>
    simp only [runContainer, List.foldlM_nil, Option.pure_def, Option.some.injEq] at hs
    subst hs
    exact containerInv_nil
  | append_singleton h op ih =>
    rw [runContainer_snoc] at hs
    obtain ⟨s1, h1, h2⟩ := Option.bind_eq_some_iff.1 hs
    exact container_step op h s1 s (ih s1 h1) h2

end Crypto3Zk
