import Verif.Lemmas.EvalStorage
import Mathlib.Algebra.Field.Rat

/-!
# C45, C46: the batched-commitment container and the evaluation storage

A history is a list of method calls on a fresh object; `none` is a failed assertion, an exception or
an out-of-bounds access. What a history means is defined in `Verif/Spec/EvalStorage.lean`.
-/

set_option linter.unusedSectionVars false

namespace Crypto3Zk

variable {F : Type} [Field F]

/-- **C46**: after every history of calls, reading any position returns the last value written there
since the polynomial or the batch was last resized (zero if it was only resized), and positions
that were never made are out of bounds. -/
theorem C46_last_write (ops : List (StorageOp F)) (z : EvalStorage F)
    (h : runStorage ops [] = some z) (b p j : Nat) :
    z.get b p j = lastWritten b p j ops.reverse :=
  (storage_run ops z h).2 b p j

/-- **C46** (sizes): the number of points of a polynomial is the one last asked for. -/
theorem C46_points_number (ops : List (StorageOp F)) (z : EvalStorage F)
    (h : runStorage ops [] = some z) (b p : Nat) :
    z.pointsNumber b p = lastPoints b p ops.reverse :=
  (storage_run ops z h).1 b p

/-- **C46** (no other position): a write changes only its own position. -/
theorem C46_other_positions (z z' : EvalStorage F) (b p j : Nat) (v : F)
    (h : z.set b p j v = some z') :
    z'.get b p j = some v ∧
      ∀ b' p' j', ¬ (b' = b ∧ p' = p ∧ j' = j) → z'.get b' p' j' = z.get b' p' j' := by
  have hz := EvalStorage.getPoly_set h
  have hs : (z.get b p j).isSome := by rw [← EvalStorage.set_isSome z b p j v, h]; rfl
  unfold EvalStorage.get at hs ⊢
  cases hl : z.getPoly b p with
  | none => simp [hl] at hs
  | some l =>
    have hj : j < l.length := by simpa [hl] using hs
    constructor
    · rw [hz]; simp [hl, hj]
    · intro b' p' j' hne
      rw [hz]
      by_cases hb : b' = b ∧ p' = p
      · obtain ⟨rfl, rfl⟩ := hb
        have hjj : j ≠ j' := fun hh => hne ⟨rfl, rfl, hh.symm⟩
        simp [hl, List.getElem?_set, hjj]
      · rw [if_neg hb]

/-- **C46** (which calls are defined): after a history, resizing a polynomial is in bounds exactly
when the polynomial exists, and a write exactly when its position exists. -/
theorem C46_defined (ops : List (StorageOp F)) (z : EvalStorage F) (h : runStorage ops [] = some z)
    (b p j n : Nat) (v : F) :
    ((z.setPointsNumber b p n).isSome ↔ (lastPoints b p ops.reverse).isSome) ∧
      ((z.set b p j v).isSome ↔ (lastWritten b p j ops.reverse).isSome) := by
  rw [EvalStorage.setPointsNumber_isSome, EvalStorage.set_isSome, ← (storage_run ops z h).1,
    ← (storage_run ops z h).2]
  simp [EvalStorage.pointsNumber]

theorem batchInfo_from (b : Nat) (z : EvalStorage F) (m : OMap Nat) (hz : OMap.Sorted z) :
    (z.foldl (fun (m : OMap Nat) e => m.insert e.1 e.2.length) m).find b =
      ((z.batchSize b).or (m.find b)) := by
  induction z generalizing m with
  | nil => rfl
  | cons e z ih =>
    obtain ⟨k, l⟩ := e
    have hc := OMap.Sorted.cons hz
    rw [List.foldl_cons, ih _ hc.2, OMap.find_insert]
    simp only [EvalStorage.batchSize, OMap.find]
    by_cases hk : b = k
    · subst hk
      simp [hc.1]
    · rw [if_neg hk, if_neg (Ne.symm hk)]

theorem storage_sorted (ops : List (StorageOp F)) (z : EvalStorage F) (h : runStorage ops [] = some z) :
    OMap.Sorted z ∧ ∀ b, z.batchSize b = lastSize b ops.reverse := by
  induction ops using List.reverseRecOn generalizing z with
  | nil =>
    simp only [runStorage, List.foldlM_nil, Option.pure_def, Option.some.injEq] at h
    subst h
    exact ⟨OMap.sorted_nil, fun _ => rfl⟩
  | append_singleton ops op ih =>
    simp only [runStorage, List.foldlM_append, List.foldlM_cons, List.foldlM_nil,
      Option.bind_eq_bind] at h
    obtain ⟨z1, h1, h2⟩ := Option.bind_eq_some_iff.1 h
    have h3 : op.apply z1 = some z := by simpa using h2
    obtain ⟨hs, hg⟩ := ih z1 h1
    rw [List.reverse_append]
    show _ ∧ ∀ b, _ = lastSize b (op :: ops.reverse)
    have key : ∀ b0 batch' z', batch'.length = (z1.getD b0 []).length → 0 < batch'.length →
        z' = OMap.insert z1 b0 batch' → OMap.Sorted z' ∧ ∀ b, EvalStorage.batchSize z' b = lastSize b ops.reverse := by
      intro b0 batch' z' hl hp hz'
      subst hz'
      refine ⟨OMap.sorted_insert _ _ _ hs, fun b => ?_⟩
      rw [← hg b]
      simp only [EvalStorage.batchSize, OMap.find_insert]
      split_ifs with hb
      · subst hb
        unfold OMap.getD at hl
        cases hf : OMap.find z1 b with
        | none => rw [hf, Option.getD_none, List.length_nil] at hl; omega
        | some l => rw [hf] at hl; simpa using hl
      · rfl
    cases op with
    | setBatchSize b0 n =>
      simp only [StorageOp.apply, Option.some.injEq] at h3
      subst h3
      refine ⟨OMap.sorted_insert _ _ _ hs, fun b => ?_⟩
      simp only [EvalStorage.setBatchSize, EvalStorage.batchSize, OMap.find_insert, lastSize]
      by_cases hb : b = b0
      · simp [hb]
      · rw [if_neg hb, if_neg (Ne.symm hb)]
        exact hg b
    | setPointsNumber b0 p n =>
      simp only [StorageOp.apply, EvalStorage.setPointsNumber] at h3
      split_ifs at h3 with hp
      rw [Option.some_inj] at h3
      simp only [lastSize]
      exact key b0 _ z (by simp) (by rw [List.length_set]; omega) h3.symm
    | set b0 p j v =>
      simp only [StorageOp.apply, EvalStorage.set, Option.bind_eq_bind, Option.bind_eq_some_iff] at h3
      obtain ⟨poly, hpoly, h3⟩ := h3
      split_ifs at h3
      rw [Option.some_inj] at h3
      simp only [lastSize]
      have hp : p < (OMap.getD z1 b0 []).length := (List.getElem?_eq_some_iff.1 hpoly).1
      exact key b0 _ z (by simp) (by rw [List.length_set]; omega) h3.symm

theorem lastSize_isSome (b : Nat) (h : List (StorageOp F)) :
    (lastSize b h).isSome ↔ ∃ n, StorageOp.setBatchSize b n ∈ h := by
  induction h with
  | nil => simp [lastSize]
  | cons op h ih =>
    cases op with
    | setBatchSize b0 n =>
      simp only [lastSize, List.mem_cons, StorageOp.setBatchSize.injEq]
      by_cases hb : b0 = b
      · subst hb
        simp only [if_true, Option.isSome_some, true_and, true_iff]
        exact ⟨n, .inl rfl⟩
      · rw [if_neg hb, ih]
        simp [Ne.symm hb]
    | setPointsNumber b0 p n => simp [lastSize, ih]
    | set b0 p j v => simp [lastSize, ih]

/-- **C46** (batches): a batch has as many polynomials as were last asked for, in `get_batch_size` and in
`get_batch_info`, and `get_batches` lists the batches that were given a size. -/
theorem C46_batches (ops : List (StorageOp F)) (z : EvalStorage F) (h : runStorage ops [] = some z) (b : Nat) :
    z.batchSize b = lastSize b ops.reverse ∧ z.batchInfo.find b = lastSize b ops.reverse ∧
      (b ∈ z.batches ↔ ∃ n, StorageOp.setBatchSize b n ∈ ops) := by
  obtain ⟨hs, hb⟩ := storage_sorted ops z h
  refine ⟨hb b, ?_, ?_⟩
  · rw [EvalStorage.batchInfo, batchInfo_from b z [] hs, hb b]
    simp [OMap.find]
  · rw [EvalStorage.batches, ← OMap.find_isSome_iff]
    have h1 : (OMap.find z b).isSome ↔ (z.batchSize b).isSome := by simp [EvalStorage.batchSize]
    rw [h1, hb b, lastSize_isSome]
    simp

/-- the hypotheses of C46 are met: write, overwrite, resize, write again -/
example : ∃ z, runStorage [.setBatchSize 3 2, .setPointsNumber 3 1 2, .set 3 1 0 (5 : ℚ),
      .set 3 1 1 6, .set 3 1 0 7] [] = some z ∧
    z.get 3 1 0 = some 7 ∧ z.get 3 1 1 = some 6 ∧ z.get 3 0 0 = none ∧
    z.pointsNumber 3 1 = some 2 ∧ z.batchInfo.find 3 = some 2 ∧ z.batches = [3] := by decide +kernel

/-- **C45** (evaluation): after every history in which every batch that received polynomials was
committed (and `set_batch_size`, the verifier's call, was not used), evaluating succeeds and the
storage holds, for each committed batch and each polynomial in it, the values of that polynomial at
its own requested points in order, and it holds nothing else. -/
theorem C45_evaluates (h : List (ContainerOp F)) (s : PolysEvaluator F)
    (hs : runContainer h = some s) (hr : ∀ k, noResize k h)
    (hc : ∀ k fs, ContainerOp.append k fs ∈ h → committed k h) :
    ∃ s', s.evalPolys = some s' ∧
      (∀ k, committed k h → OMap.find s'.z k =
        some ((appended k h).mapIdx fun i f => (requested k i h).map (evalPoly f))) ∧
      ∀ k, ¬ committed k h → OMap.find s'.z k = none := by
  have inv := container_run h s hs
  have hkeys : ∀ k, k ∈ s.polys.keys ↔ committed k h := by
    intro k; rw [inv.keys]
    exact ⟨fun hk => hk.elim id fun ⟨fs, hf⟩ => hc k fs hf, Or.inl⟩
  obtain ⟨z', h1, h2⟩ := PolysEvaluator.evalBatches_spec s.points s.polys s.z inv.sorted (by
    intro k fs hk
    have hck : committed k h := (hkeys k).1 ((OMap.find_isSome_iff _ _).1 (by rw [hk]; rfl))
    refine ⟨_, inv.points k (hr k) hck, ?_⟩
    have : fs = appended k h := by rw [← inv.polys, OMap.getD, hk]; rfl
    simp [this])
  refine ⟨⟨z', s.polys, s.locked, s.points⟩, by simp [PolysEvaluator.evalPolys, h1], ?_, ?_⟩
  · intro k hk
    have hsome : (s.polys.find k).isSome := (OMap.find_isSome_iff _ _).2 ((hkeys k).2 hk)
    obtain ⟨fs, hfs⟩ := Option.isSome_iff_exists.1 hsome
    have hfa : fs = appended k h := by rw [← inv.polys, OMap.getD, hfs]; rfl
    show OMap.find z' k = _
    rw [h2 k, hfs]
    simp only [OMap.getD, inv.points k (hr k) hk, Option.getD_some, Option.some.injEq]
    subst hfa
    apply List.ext_getElem?
    intro i
    simp only [List.getElem?_zipWith, List.getElem?_mapIdx, List.getElem?_map]
    by_cases hi : i < (appended k h).length
    · simp [hi]
    · simp [hi]
  · intro k hk
    show OMap.find z' k = _
    have : s.polys.find k = none := (OMap.find_eq_none_iff _ _).2 fun hm => hk ((hkeys k).1 hm)
    rw [h2 k, this, inv.z]; rfl

/-- **C45** (committed batches are frozen): after a batch is committed, every later successful
history leaves its polynomials unchanged. -/
theorem C45_frozen (h1 h2 : List (ContainerOp F)) (k : Nat) (s : PolysEvaluator F)
    (hs : runContainer (h1 ++ .commit k :: h2) = some s) :
    s.polys.find k = some (appended k h1) := by
  have inv := container_run _ s hs
  have hm : k ∈ s.polys.keys := (inv.keys k).2 (Or.inl (by simp [committed]))
  have hsome := (OMap.find_isSome_iff _ _).2 hm
  obtain ⟨fs, hfs⟩ := Option.isSome_iff_exists.1 hsome
  have hfa : fs = appended k (h1 ++ .commit k :: h2) := by rw [← inv.polys, OMap.getD, hfs]; rfl
  rw [hfs, hfa]
  congr 1
  clear hm hsome hfs hfa inv
  induction h2 using List.reverseRecOn generalizing s with
  | nil => simp [appended]
  | append_singleton h2 op ih =>
    rw [show h1 ++ ContainerOp.commit k :: (h2 ++ [op])
      = (h1 ++ ContainerOp.commit k :: h2) ++ [op] by simp] at hs ⊢
    rw [runContainer_snoc] at hs
    obtain ⟨s1, hs1, hop⟩ := Option.bind_eq_some_iff.1 hs
    have inv1 := container_run _ s1 hs1
    rw [appended_snoc, ih s1 hs1]
    have hl : s1.locked.getD k false = true := (inv1.locked k).2 (Or.inl (by simp [committed]))
    cases op with
    | append k' fs' =>
      have hkk : k' ≠ k := by
        rintro rfl
        simp only [ContainerOp.apply, PolysEvaluator.appendToBatch] at hop
        cases hf : s1.locked.find k' with
        | none => simp [OMap.getD, hf] at hl
        | some b => simp [OMap.getD, hf] at hl hop; simp [hl] at hop
      simp [appended, hkk]
    | commit _ => simp [appended]
    | points _ _ => simp [appended]
    | pointsTo _ _ _ => simp [appended]
    | batchSize _ _ => simp [appended]

/-- **C45** (the allowed order): after any successful history, appending polynomials is allowed
exactly while the batch is neither committed nor sized; adding points to a batch exactly after
that; adding points to one polynomial exactly if moreover the polynomial exists (stated for batches
that were committed). Committing and sizing are always allowed. -/
theorem C45_allowed (h : List (ContainerOp F)) (s : PolysEvaluator F)
    (hs : runContainer h = some s) (k : Nat) :
    (∀ fs, (runContainer (h ++ [.append k fs])).isSome ↔
      ¬ (committed k h ∨ ∃ n, ContainerOp.batchSize k n ∈ h)) ∧
    (∀ xs, (runContainer (h ++ [.points k xs])).isSome ↔
      (committed k h ∨ ∃ n, ContainerOp.batchSize k n ∈ h)) ∧
    (∀ i xs, noResize k h → ((runContainer (h ++ [.pointsTo k i xs])).isSome ↔
      committed k h ∧ i < (appended k h).length)) ∧
    (runContainer (h ++ [.commit k])).isSome ∧
    ∀ n, (runContainer (h ++ [.batchSize k n])).isSome := by
  have inv := container_run h s hs
  refine ⟨fun fs => ?_, fun xs => ?_, fun i xs hr => ?_, ?_, fun n => ?_⟩
  · change _ ↔ ¬ lockedSpec k h
    rw [← inv.locked, runContainer_snoc, hs, Option.bind_some]
    simp only [ContainerOp.apply, PolysEvaluator.appendToBatch]
    cases hf : s.locked.find k with
    | none => simp [OMap.getD_insert, OMap.getD, hf, OMap.find_insert]
    | some b => cases b <;> simp [OMap.getD, hf]
  · change _ ↔ lockedSpec k h
    rw [← inv.locked, runContainer_snoc, hs, Option.bind_some]
    simp only [ContainerOp.apply, PolysEvaluator.appendEvalPoints]
    split_ifs with hl <;> simp [hl]
  · rw [runContainer_snoc, hs, Option.bind_some]
    simp only [ContainerOp.apply, PolysEvaluator.appendEvalPointsTo]
    by_cases hc : committed k h
    · have hl := (inv.locked k).2 (Or.inl hc)
      rw [if_pos hl, OMap.getD, inv.points k hr hc]
      by_cases hi : i < (appended k h).length
      · simp [hi, hc]
      · simp [hi]
    · have hl : ¬ s.locked.getD k false = true := by
        rw [inv.locked]
        rintro (h1 | ⟨n, h1⟩)
        · exact hc h1
        · exact hr n h1
      simp [hl, hc]
  · rw [runContainer_snoc, hs]; rfl
  · rw [runContainer_snoc, hs]; rfl

/-- **C45** (uncommitted batch): evaluating while some batch has polynomials but was neither
committed nor sized throws. -/
theorem C45_uncommitted_throws (h : List (ContainerOp F)) (s : PolysEvaluator F)
    (hs : runContainer h = some s) (k : Nat) (fs : List (List F))
    (ha : ContainerOp.append k fs ∈ h) (hc : ¬ committed k h) (hr : noResize k h) :
    s.evalPolys = none := by
  have inv := container_run h s hs
  have hl : ¬ lockedSpec k h := by
    rintro (h1 | ⟨n, h1⟩)
    · exact hc h1
    · exact hr n h1
  have := PolysEvaluator.evalBatches_missing s.points s.polys k
    ((inv.keys k).2 (Or.inr ⟨fs, ha⟩)) (inv.unlocked k hl).1 s.z
  simp [PolysEvaluator.evalPolys, this]

/-- **C45** (prover and verifier): a prover that appended and committed batch `k`, and a verifier
that declared the batch's size instead, hold the same point lists when the same points were
requested, in whatever other order their calls were interleaved. -/
theorem C45_verifier_points (hp hv : List (ContainerOp F)) (sp sv : PolysEvaluator F)
    (h1 : runContainer hp = some sp) (h2 : runContainer hv = some sv) (k : Nat)
    (hc : committed k hp) (hr : noResize k hp) (hnc : ¬ committed k hv)
    (hb : ContainerOp.batchSize k (appended k hp).length ∈ hv)
    (hu : ∀ n, ContainerOp.batchSize k n ∈ hv → n = (appended k hp).length)
    (hreq : ∀ i, requested k i hp = requested k i hv) :
    sv.points.find k = sp.points.find k := by
  rw [(container_run hv sv h2).sized k _ hnc hb hu, (container_run hp sp h1).points k hr hc]
  simp [hreq]

/-- the history used in the examples: two batches, points for a batch and for one polynomial -/
def exHistory : List (ContainerOp ℚ) :=
  [.append 0 [[1, 2]], .append 4 [[3], [0, 0, 1]], .append 0 [[5, 0, 1]], .commit 4, .commit 0,
    .points 0 [2], .pointsTo 0 1 [7, 2], .points 4 [3, 10]]

/-- the hypotheses of C45 are met by a history with two batches -/
example : ∃ s', (runContainer exHistory).bind PolysEvaluator.evalPolys = some s' ∧
    OMap.find s'.z 0 = some [[5], [9, 54, 9]] ∧ OMap.find s'.z 4 = some [[3, 3], [9, 100]] ∧
    OMap.find s'.z 1 = none := by
  decide +kernel

example : (∀ k, noResize k exHistory) ∧
    ∀ k fs, ContainerOp.append k fs ∈ exHistory → committed k exHistory := by
  constructor
  · intro k n; simp [exHistory]
  · intro k fs h
    simp [exHistory] at h
    rcases h with ⟨rfl, -⟩ | ⟨rfl, -⟩ | ⟨rfl, -⟩ <;> simp [committed, exHistory]

/-- a verifier history with the same points -/
example : ∃ s, runContainer ([.batchSize 4 2, .batchSize 0 2, .points 4 [3, 10], .points 0 [2],
      .pointsTo 0 1 [7, 2]] : List (ContainerOp ℚ)) = some s ∧
    s.points.find 0 = some [[2], [2, 7, 2]] := by decide +kernel

/-- **C45** (finding): the assertion in `eval_polys` lets through a batch with several polynomials
and a point vector of size one, for which the loop then reads past the end of the vector. The
history (size the batch to one after committing two polynomials) violates no assertion. -/
theorem C45_single_point_vector_out_of_bounds :
    ∃ s, runContainer ([.append 0 [[1], [2]], .commit 0, .batchSize 0 1, .points 0 [3]] :
        List (ContainerOp ℚ)) = some s ∧
      (∀ fs pts, s.polys.find 0 = some fs → s.points.find 0 = some pts →
        fs.length = pts.length ∨ pts.length = 1) ∧
      s.evalPolys = none := by
  refine ⟨_, rfl, ?_, by decide +kernel⟩
  intro fs pts h1 h2
  right
  have : pts = [[3]] := by
    have h3 : some pts = some [[3]] := h2.symm.trans (by decide +kernel)
    exact Option.some.inj h3
  rw [this]; rfl

/-! ## the lists of distinct points -/

theorem pushUnique_spec {α : Type} [DecidableEq α] (xs acc : List α) (h : acc.Nodup) :
    (xs.foldl PolysEvaluator.pushUnique acc).Nodup ∧
      (∀ x, x ∈ xs.foldl PolysEvaluator.pushUnique acc ↔ x ∈ acc ∨ x ∈ xs) := by
  induction xs generalizing acc with
  | nil => simp [h]
  | cons x xs ih =>
    have hn : (PolysEvaluator.pushUnique acc x).Nodup := by
      unfold PolysEvaluator.pushUnique
      split_ifs with hx
      · exact h
      · exact List.nodup_append.2 ⟨h, by simp, by simpa using fun a ha => (by
          rintro rfl; exact hx ha)⟩
    obtain ⟨h1, h2⟩ := ih _ hn
    refine ⟨h1, fun y => ?_⟩
    rw [List.foldl_cons, h2]
    unfold PolysEvaluator.pushUnique
    split_ifs with hx
    · constructor
      · rintro (h | h)
        · exact Or.inl h
        · exact Or.inr (by simp [h])
      · rintro (h | h)
        · exact Or.inl h
        · rcases List.mem_cons.1 h with rfl | h
          · exact Or.inl hx
          · exact Or.inr h
    · simp [or_assoc]

theorem pushUnique_nested {α β : Type} [DecidableEq α] (f : β → List α) (ys : List β)
    (acc : List α) (h : acc.Nodup) :
    (ys.foldl (fun acc y => (f y).foldl PolysEvaluator.pushUnique acc) acc).Nodup ∧
      (∀ x, x ∈ ys.foldl (fun acc y => (f y).foldl PolysEvaluator.pushUnique acc) acc ↔
        x ∈ acc ∨ ∃ y ∈ ys, x ∈ f y) := by
  induction ys generalizing acc with
  | nil => simp [h]
  | cons y ys ih =>
    obtain ⟨h1, h2⟩ := pushUnique_spec (f y) acc h
    obtain ⟨h3, h4⟩ := ih _ h1
    refine ⟨h3, fun x => ?_⟩
    rw [List.foldl_cons, h4, h2]
    simp [or_assoc]

/-- **C45** (distinct points): `get_unique_points` lists every point of every polynomial exactly
once and nothing else. -/
theorem C45_unique_points [DecidableEq F] (s : PolysEvaluator F) :
    s.uniquePoints.Nodup ∧ ∀ x, x ∈ s.uniquePoints ↔
      ∃ k sets set, (k, sets) ∈ s.points ∧ set ∈ sets ∧ x ∈ set := by
  have key : ∀ (pts : List (Nat × List (List F))) (acc : List F), acc.Nodup →
      (pts.foldl (fun acc e => e.2.foldl (fun acc set => set.foldl PolysEvaluator.pushUnique acc)
        acc) acc).Nodup ∧
      ∀ x, x ∈ pts.foldl (fun acc e => e.2.foldl (fun acc set =>
          set.foldl PolysEvaluator.pushUnique acc) acc) acc ↔
        x ∈ acc ∨ ∃ k sets set, (k, sets) ∈ pts ∧ set ∈ sets ∧ x ∈ set := by
    intro pts
    induction pts with
    | nil => intro acc h; simp [h]
    | cons e pts ih =>
      intro acc h
      obtain ⟨h1, h2⟩ := pushUnique_nested (fun set : List F => set) e.2 acc h
      obtain ⟨h3, h4⟩ := ih _ h1
      refine ⟨h3, fun x => ?_⟩
      rw [List.foldl_cons, h4, h2]
      obtain ⟨k, sets⟩ := e
      constructor
      · rintro ((h | ⟨set, ha, hb⟩) | ⟨k', sets', set, ha, hb, hc⟩)
        · exact Or.inl h
        · exact Or.inr ⟨k, sets, set, by simp, ha, hb⟩
        · exact Or.inr ⟨k', sets', set, by simp [ha], hb, hc⟩
      · rintro (h | ⟨k', sets', set, ha, hb, hc⟩)
        · exact Or.inl (Or.inl h)
        · rcases List.mem_cons.1 ha with he | ha
          · cases he; exact Or.inl (Or.inr ⟨set, hb, hc⟩)
          · exact Or.inr ⟨k', sets', set, ha, hb, hc⟩
  have := key s.points [] (by simp)
  exact ⟨this.1, fun x => by rw [PolysEvaluator.uniquePoints, this.2 x]; simp⟩

theorem uniquePointSets_spec [DecidableEq F] (s : PolysEvaluator F) :
    s.uniquePointSets.Nodup ∧ ∀ x, x ∈ s.uniquePointSets ↔ ∃ e ∈ s.points, x ∈ e.2 := by
  have := pushUnique_nested (fun e : Nat × List (List F) => e.2) s.points [] (by simp)
  refine ⟨this.1, fun x => ?_⟩
  have h2 := this.2 x
  rw [PolysEvaluator.uniquePointSets, h2]; simp

theorem firstIndex_spec {α : Type} [DecidableEq α] (x : α) (l : List α) (h : x ∈ l) :
    ∃ j, PolysEvaluator.firstIndex x l = some j ∧ l[j]? = some x := by
  induction l with
  | nil => simp at h
  | cons y l ih =>
    unfold PolysEvaluator.firstIndex
    by_cases hy : y = x
    · exact ⟨0, by simp [hy], by simp [hy]⟩
    · obtain ⟨j, h1, h2⟩ := ih (by simpa [Ne.symm hy] using h)
      exact ⟨j + 1, by simp [hy, h1], by simp [h2]⟩

theorem mapM_firstIndex {α : Type} [DecidableEq α] (l xs : List α) (h : ∀ x ∈ xs, x ∈ l) :
    ∃ js, xs.mapM (fun x => PolysEvaluator.firstIndex x l) = some js ∧
      js.map (fun j => l[j]?) = xs.map some := by
  induction xs with
  | nil => exact ⟨[], rfl, rfl⟩
  | cons x xs ih =>
    obtain ⟨j, h1, h2⟩ := firstIndex_spec x l (h x (by simp))
    obtain ⟨js, h3, h4⟩ := ih fun y hy => h y (by simp [hy])
    exact ⟨j :: js, by simp [h1, h3], by simp [h2, h4]⟩

/-- **C45** (evaluation map): the list of distinct point sets has no repetitions, the map from
polynomials to indices in that list is always defined (its assertion never fails), and it sends each
polynomial of each batch to its own point set. -/
theorem C45_eval_map [DecidableEq F] (h : List (ContainerOp F)) (s : PolysEvaluator F)
    (hs : runContainer h = some s) :
    s.uniquePointSets.Nodup ∧ ∃ m, s.evalMap s.uniquePointSets = some m ∧
      ∀ k sets, s.points.find k = some sets → ∃ js, m.find k = some js ∧
        js.map (fun j => s.uniquePointSets[j]?) = sets.map some := by
  obtain ⟨hnd, hmem⟩ := uniquePointSets_spec s
  refine ⟨hnd, ?_⟩
  have key : ∀ (pts : OMap (List (List F))) (m0 : OMap (List Nat)), pts.Sorted →
      (∀ e ∈ pts, ∀ x ∈ e.2, x ∈ s.uniquePointSets) →
      ∃ m, List.foldlM (fun m (e : Nat × List (List F)) => do
          let js ← e.2.mapM fun set => PolysEvaluator.firstIndex set s.uniquePointSets
          some (OMap.insert m e.1 js)) m0 pts = some m ∧
        (∀ k, pts.find k = none → m.find k = m0.find k) ∧
        ∀ k sets, pts.find k = some sets → ∃ js, m.find k = some js ∧
          js.map (fun j => s.uniquePointSets[j]?) = sets.map some := by
    intro pts
    induction pts with
    | nil => intro m0 _ _; exact ⟨m0, rfl, fun _ _ => rfl, by simp⟩
    | cons e pts ih =>
      intro m0 hsort hall
      obtain ⟨a, sets⟩ := e
      obtain ⟨js, h1, h2⟩ := mapM_firstIndex s.uniquePointSets sets (hall (a, sets) (by simp))
      obtain ⟨m, h3, h4, h5⟩ := ih (OMap.insert m0 a js) hsort.cons.2
        fun e he => hall e (by simp [he])
      refine ⟨m, ?_, ?_, ?_⟩
      · rw [List.foldlM_cons]
        simp only [h1, Option.bind_eq_bind, Option.bind_some]
        exact h3
      · intro k hk
        rw [OMap.find] at hk
        split_ifs at hk with hak
        rw [h4 k hk, OMap.find_insert, if_neg (Ne.symm hak)]
      · intro k sets' hk
        rw [OMap.find] at hk
        split_ifs at hk with hak
        · subst hak; cases hk
          exact ⟨js, by rw [h4 a hsort.cons.1, OMap.find_insert, if_pos rfl], h2⟩
        · exact h5 k sets' hk
  obtain ⟨m, h1, -, h3⟩ := key s.points [] (container_run h s hs).psorted
    fun e he x hx => (hmem x).2 ⟨e, he, hx⟩
  exact ⟨m, h1, h3⟩

example : ∃ s, runContainer exHistory = some s ∧ s.uniquePointSets = [[2], [2, 7, 2], [3, 10]] ∧
    s.evalMap s.uniquePointSets = some [(0, [0, 1]), (4, [2, 2])] ∧
    s.uniquePoints = [2, 7, 3, 10] := by decide +kernel

end Crypto3Zk
