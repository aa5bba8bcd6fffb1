import Verif.Lemmas.PlaceholderLpc
import Verif.Lemmas.Groups
import Verif.Lemmas.PermutationArg
import Mathlib.Data.List.GetD

/-!
# The evaluation points of the placeholder prover and verifier
-/

set_option linter.unusedSectionVars false

namespace Crypto3Zk

variable {F : Type} [Field F] [DecidableEq F] {S H Com Pr Data Obj : Type}

/-! ## rotation sets -/

theorem mem_insertSorted (r x : Int) (l : List Int) : x ∈ insertSorted r l ↔ x = r ∨ x ∈ l := by
  induction l with
  | nil => simp [insertSorted]
  | cons a l ih =>
    unfold insertSorted
    by_cases h1 : r < a
    · rw [if_pos h1]; simp
    rw [if_neg h1]
    by_cases h2 : r = a
    · rw [if_pos h2]; subst h2; simp
    rw [if_neg h2]
    simp only [List.mem_cons, ih]
    tauto

theorem sorted_insertSorted (r : Int) (l : List Int) (h : l.Pairwise (· < ·)) :
    (insertSorted r l).Pairwise (· < ·) := by
  induction l with
  | nil => simp [insertSorted]
  | cons a l ih =>
    rw [List.pairwise_cons] at h
    unfold insertSorted
    by_cases h1 : r < a
    · rw [if_pos h1, List.pairwise_cons]
      refine ⟨?_, List.pairwise_cons.2 h⟩
      intro x hx
      rcases List.mem_cons.1 hx with rfl | hx
      · exact h1
      · exact h1.trans (h.1 x hx)
    rw [if_neg h1]
    by_cases h2 : r = a
    · rw [if_pos h2]; exact List.pairwise_cons.2 h
    rw [if_neg h2, List.pairwise_cons]
    refine ⟨?_, ih h.2⟩
    intro x hx
    rcases (mem_insertSorted r x l).1 hx with rfl | hx
    · omega
    · exact h.1 x hx

theorem insertRotations_spec (rs : List (Nat × Int)) : ∀ (m m' : List (List Int)),
    rs.foldlM (fun m r => insertRotation m r.1 r.2) m = some m' → (∀ s ∈ m, s.Pairwise (· < ·)) →
    m'.length = m.length ∧ (∀ s ∈ m', s.Pairwise (· < ·)) ∧ (∀ r ∈ rs, r.1 < m.length) ∧
      ∀ i < m.length, ∀ x, x ∈ m'.getD i [] ↔ x ∈ m.getD i [] ∨ (i, x) ∈ rs := by
  induction rs with
  | nil =>
    intro m m' h hs
    simp only [List.foldlM_nil, Option.pure_def, Option.some.injEq] at h
    subst h
    exact ⟨rfl, hs, by simp, by simp⟩
  | cons r rs ih =>
    intro m m' h hs
    rw [List.foldlM_cons] at h
    obtain ⟨m1, h1, h⟩ := Option.bind_eq_some_iff.1 h
    unfold insertRotation at h1
    obtain ⟨s, hsm, h1⟩ := Option.bind_eq_some_iff.1 h1
    simp only [Option.some.injEq] at h1
    subst h1
    obtain ⟨hlt, hse⟩ := List.getElem?_eq_some_iff.1 hsm
    obtain ⟨i1, i2, i3, i4⟩ := ih _ m' h (by
      intro s' hs'
      rcases List.mem_or_eq_of_mem_set hs' with h' | rfl
      · exact hs _ h'
      · exact sorted_insertSorted _ _ (hs _ (hse ▸ List.getElem_mem hlt)))
    rw [List.length_set] at i1 i3 i4
    refine ⟨i1, i2, ?_, ?_⟩
    · intro r' hr'
      rcases List.mem_cons.1 hr' with rfl | hr'
      · exact hlt
      · exact i3 r' hr'
    · intro i hi x
      rw [i4 i hi x, List.getD_eq_getElem _ _ (by simpa using hi), List.getD_eq_getElem _ _ hi,
        List.getElem_set]
      by_cases hri : r.1 = i
      · subst hri
        rw [if_pos rfl, mem_insertSorted, hse, List.mem_cons, Prod.ext_iff]
        simp only [true_and]
        tauto
      · rw [if_neg hri, List.mem_cons, Prod.ext_iff]
        simp only [Ne.symm hri, false_and, false_or]

theorem insertRotations_defined (rs : List (Nat × Int)) : ∀ (m : List (List Int)),
    (∀ r ∈ rs, r.1 < m.length) → ∃ m', rs.foldlM (fun m r => insertRotation m r.1 r.2) m = some m' := by
  induction rs with
  | nil => intro m _; exact ⟨m, rfl⟩
  | cons r rs ih =>
    intro m h
    rw [List.foldlM_cons]
    have h0 := h r List.mem_cons_self
    obtain ⟨m', hm'⟩ := ih (m.set r.1 (insertSorted r.2 m[r.1])) (by
      intro r' hr'
      rw [List.length_set]
      exact h r' (List.mem_cons_of_mem _ hr'))
    refine ⟨m', ?_⟩
    have : insertRotation m r.1 r.2 = some (m.set r.1 (insertSorted r.2 m[r.1])) := by
      simp [insertRotation, List.getElem?_eq_getElem h0]
    rw [this]
    exact hm'

theorem mem_rotationRequests (d : TableDesc) (c : Circuit F) (rs : List (Nat × Int))
    (h : rotationRequests d c = some rs) (i : Nat) (r : Int) :
    (i, r) ∈ rs ↔ VarUsed d c i r ∨ LookupTableUsed d c i r := by
  unfold rotationRequests at h
  obtain ⟨vs, hvs, h⟩ := Option.bind_eq_some_iff.1 h
  have hm : (i, r) ∈ vs ↔ VarUsed d c i r := by
    have hf : List.Forall₂ (fun v b => ((d.globalIndex v).bind fun i => some (i, v.rotation)) = some b)
        c.usedVars vs := forall₂_of_mapM _ _ _ hvs
    unfold VarUsed
    constructor
    · intro hmem
      obtain ⟨j, hj, he⟩ := List.getElem_of_mem hmem
      have hl := hf.length_eq
      have := List.forall₂_iff_get.1 hf
      have := this.2 j (by omega) hj
      simp only [List.get_eq_getElem, he] at this
      obtain ⟨k, hk, this⟩ := Option.bind_eq_some_iff.1 this
      simp only [Option.some.injEq, Prod.mk.injEq] at this
      obtain ⟨rfl, rfl⟩ := this
      exact ⟨_, List.getElem_mem (by omega), hk, rfl⟩
    · rintro ⟨v, hv, hg, rfl⟩
      obtain ⟨j, hj, he⟩ := List.getElem_of_mem hv
      have hl := hf.length_eq
      have := (List.forall₂_iff_get.1 hf).2 j hj (by omega)
      simp only [List.get_eq_getElem, he, hg, Option.bind_some, Option.some.injEq] at this
      rw [this]
      exact List.getElem_mem (by omega)
  by_cases h0 : c.lookups.gates.length ≠ 0
  · rw [if_pos h0] at h
    simp only [Option.some.injEq] at h
    subst h
    rw [List.mem_append, hm]
    have h0' : c.lookups.gates ≠ [] := by intro h; exact h0 (by simp [h])
    simp only [LookupTableUsed, ne_eq, h0', not_false_eq_true, true_and, List.mem_flatMap, List.mem_cons,
      List.mem_map, Prod.mk.injEq]
    apply or_congr Iff.rfl
    constructor
    · rintro ⟨tab, htab, ⟨rfl, rfl⟩ | ⟨o, ho, v, hv, rfl, rfl⟩⟩
      · exact ⟨rfl, tab, htab, Or.inl rfl⟩
      · exact ⟨rfl, tab, htab, Or.inr ⟨o, ho, v, hv, rfl⟩⟩
    · rintro ⟨rfl, tab, htab, rfl | ⟨o, ho, v, hv, rfl⟩⟩
      · exact ⟨tab, htab, Or.inl ⟨rfl, rfl⟩⟩
      · exact ⟨tab, htab, Or.inr ⟨o, ho, v, hv, rfl, rfl⟩⟩
  · rw [if_neg h0] at h
    simp only [Option.some.injEq] at h
    subst h
    have h0' : c.lookups.gates = [] := List.length_eq_zero_iff.1 (not_not.1 h0)
    rw [hm]
    simp [LookupTableUsed, h0']

/-- The rotation sets. -/
theorem columnsRotations_spec (d : TableDesc) (c : Circuit F) (rots : List (List Int))
    (h : columnsRotations d c = some rots) :
    rots.length = d.width ∧ (∀ s ∈ rots, s.Pairwise (· < ·)) ∧
      (∀ i r, VarUsed d c i r ∨ LookupTableUsed d c i r → i < d.width) ∧
      ∀ i < d.width, ∀ r, r ∈ rots.getD i [] ↔ r = 0 ∨ VarUsed d c i r ∨ LookupTableUsed d c i r := by
  unfold columnsRotations at h
  obtain ⟨rs, hrs, h⟩ := Option.bind_eq_some_iff.1 h
  obtain ⟨h1, h2, h3, h4⟩ := insertRotations_spec rs _ _ h (by
    intro s hs
    rw [List.eq_of_mem_replicate hs]
    simp)
  rw [List.length_replicate] at h1 h3 h4
  refine ⟨h1, h2, fun i r hir => h3 (i, r) ((mem_rotationRequests d c rs hrs i r).2 hir), ?_⟩
  intro i hi r
  rw [h4 i hi r, mem_rotationRequests d c rs hrs i r,
    List.getD_eq_getElem _ _ (by simpa using hi), List.getElem_replicate, List.mem_singleton]

theorem rotationRequests_defined (d : TableDesc) (c : Circuit F)
    (hg : ∀ v ∈ c.usedVars, v.type ≠ .uninitialized) : ∃ rs, rotationRequests d c = some rs := by
  obtain ⟨vs, hvs⟩ : ∃ vs, (c.gates.flatMap (fun g => g.constraints.flatMap Expr.visitVars) ++
    c.lookups.gates.flatMap fun g => g.constraints.flatMap fun k => k.input.flatMap Expr.visitVars).mapM
      (fun v => do
        let i ← d.globalIndex v
        some (i, v.rotation)) = some vs := by
    refine ⟨_, mapM_eq_some_map _ (fun v => ((d.globalIndex v).getD 0, v.rotation)) _ ?_⟩
    intro v hv
    have := hg v hv
    obtain ⟨i, r, rel, ty⟩ := v
    cases ty <;> simp_all [TableDesc.globalIndex]
  unfold rotationRequests
  by_cases h0 : c.lookups.gates.length ≠ 0
  · exact ⟨_, by simp only [hvs, if_pos h0]; rfl⟩
  · exact ⟨_, by simp only [hvs, if_neg h0]; rfl⟩

theorem columnsRotations_defined (d : TableDesc) (c : Circuit F)
    (hg : ∀ v ∈ c.usedVars, v.type ≠ .uninitialized)
    (hi : ∀ i r, VarUsed d c i r ∨ LookupTableUsed d c i r → i < d.width) :
    ∃ rots, columnsRotations d c = some rots := by
  obtain ⟨rs, hrs⟩ := rotationRequests_defined d c hg
  unfold columnsRotations
  rw [hrs]
  obtain ⟨m, hm⟩ := insertRotations_defined rs (List.replicate d.width [0]) (by
    intro r hr
    rw [List.length_replicate]
    exact hi r.1 r.2 ((mem_rotationRequests d c rs hrs r.1 r.2).1 hr))
  exact ⟨m, hm⟩

/-! ## requested points -/

theorem lpcRequested_flatMap {X : Type} (k i : Nat) (l : List X) (g : X → List (LpcOp F)) :
    lpcRequested k i (l.flatMap g) = l.flatMap fun x => lpcRequested k i (g x) := by
  unfold lpcRequested
  rw [List.flatMap_assoc]

theorem lpcRequested_pointsTo (k i b j : Nat) (rs : List Int) (f : Int → F) :
    lpcRequested k i (rs.map fun r => LpcOp.pointsTo b j [f r]) = if b = k ∧ j = i then rs.map f else [] := by
  unfold lpcRequested
  rw [List.flatMap_map]
  by_cases h : b = k ∧ j = i
  · simp only [if_pos h]
    induction rs with
    | nil => rfl
    | cons r rs ih => simp [List.flatMap_cons, ih]
  · simp only [if_neg h]
    induction rs with
    | nil => rfl
    | cons r rs ih => simp [List.flatMap_cons]

theorem range_flatMap_unique {X : Type} (count first i : Nat) (P : Prop) [Decidable P] (g : Nat → List X) :
    ((List.range count).flatMap fun j => if P ∧ first + j = i then g j else []) =
      if P ∧ first ≤ i ∧ i < first + count then g (i - first) else [] := by
  induction count with
  | zero => rw [if_neg (by omega)]; rfl
  | succ count ih =>
    rw [List.range_succ, List.flatMap_append, ih, List.flatMap_singleton]
    by_cases hP : P
    · by_cases h : first + count = i
      · rw [if_neg (by omega), if_pos ⟨hP, h⟩, if_pos ⟨hP, by omega⟩, List.nil_append,
          show i - first = count by omega]
      · rw [if_neg (by tauto : ¬ (P ∧ first + count = i)), List.append_nil]
        by_cases h' : first ≤ i ∧ i < first + count
        · rw [if_pos ⟨hP, h'⟩, if_pos ⟨hP, by omega⟩]
        · rw [if_neg (by tauto), if_neg (by
            rintro ⟨_, h1, h2⟩
            exact h' ⟨h1, by omega⟩)]
    · rw [if_neg (by tauto), if_neg (by tauto), if_neg (by tauto)]; rfl

theorem columnPoints_eq (rots : List (List Int)) (batch first base count : Nat) (omega y : F)
    (h : base + count ≤ rots.length) :
    columnPoints rots batch first base count omega y =
      some ((List.range count).flatMap fun i =>
        (rots.getD (base + i) []).map fun r => LpcOp.pointsTo batch (first + i) [y * omega ^ r]) := by
  unfold columnPoints
  rw [mapM_eq_some_map _ (fun i => (rots.getD (base + i) []).map fun r =>
    LpcOp.pointsTo batch (first + i) [y * omega ^ r])]
  · simp [List.flatMap_def]
  · intro i hi
    rw [List.mem_range] at hi
    rw [List.getElem?_eq_getElem (by omega), List.getD_eq_getElem _ _ (by omega)]
    rfl

theorem columnPoints_requested (rots : List (List Int)) (batch first base count : Nat) (omega y : F)
    (k i : Nat) :
    lpcRequested k i ((List.range count).flatMap fun i =>
        (rots.getD (base + i) []).map fun r => LpcOp.pointsTo batch (first + i) [y * omega ^ r]) =
      if batch = k ∧ first ≤ i ∧ i < first + count then
        (rots.getD (base + (i - first)) []).map fun r => y * omega ^ r else [] := by
  rw [lpcRequested_flatMap]
  simp only [lpcRequested_pointsTo]
  rw [range_flatMap_unique count first i (batch = k)
    (fun j => (rots.getD (base + j) []).map fun r => y * omega ^ r)]

theorem range_requested (count b k i : Nat) (y : F) :
    lpcRequested k i ((List.range count).map fun j => LpcOp.pointsTo b j [y]) =
      if b = k ∧ i < count then [y] else [] := by
  have h : ((List.range count).map fun j => (LpcOp.pointsTo b j [y] : LpcOp F)) =
      (List.range count).flatMap fun j => [LpcOp.pointsTo b (0 + j) [y]] := by
    simp [List.flatMap_singleton']
    induction List.range count with
    | nil => rfl
    | cons a l ih => simp [List.flatMap_cons, ih]
  rw [h, lpcRequested_flatMap]
  have : ∀ j, lpcRequested k i [LpcOp.pointsTo b (0 + j) [y]] = if b = k ∧ 0 + j = i then [y] else [] := by
    intro j; simp [lpcRequested]
  simp only [this]
  rw [range_flatMap_unique count 0 i (b = k) (fun _ => [y])]
  simp

/-- The calls of both, for rotation sets of all columns. -/
def pointOps (L : FftLib F) (n : Nat) (d : TableDesc) (c : Circuit F) (rotations : List (List Int))
    (parts usable start : Nat) (y : F) : List (LpcOp F) :=
  let omega := (L.domain n).elem 1
  ((List.range (d.witness + d.publicInput)).flatMap fun i =>
      (rotations.getD (0 + i) []).map fun r => LpcOp.pointsTo VARIABLE_BATCH (0 + i) [y * omega ^ r]) ++
    (if c.lookups.gates ≠ [] ∨ c.copies ≠ [] then [LpcOp.points PERMUTATION_BATCH [y]] else []) ++
    (if c.copies ≠ [] then [LpcOp.pointsTo PERMUTATION_BATCH 0 [y * omega]] else []) ++
    (if c.lookups.gates ≠ [] then
      [LpcOp.pointsTo PERMUTATION_BATCH parts [y * omega],
       LpcOp.points LOOKUP_BATCH [y], LpcOp.points LOOKUP_BATCH [y * omega],
       LpcOp.points LOOKUP_BATCH [y * omega ^ usable]]
      else []) ++
    [LpcOp.points QUOTIENT_BATCH [y]] ++
    ((List.range start).map fun i => LpcOp.pointsTo FIXED_BATCH i [y]) ++
    [LpcOp.pointsTo FIXED_BATCH (start - 2) [y * omega], LpcOp.pointsTo FIXED_BATCH (start - 1) [y * omega]] ++
    ((List.range (d.constant + d.selector)).flatMap fun i =>
      (rotations.getD (d.witness + d.publicInput + i) []).map fun r =>
        LpcOp.pointsTo FIXED_BATCH (start + i) [y * omega ^ r])

theorem verifierPoints_eq (L : FftLib F) (n : Nat) (d : TableDesc) (c : Circuit F)
    (common : CommonData F H Com Data) (y : F) (h : common.rotations.length = d.width) :
    verifierPoints L n d c common y = some (pointOps L n d c common.rotations common.permutationParts
      common.desc.usableRows (common.permutedColumns.length * 2 + 2) y) := by
  unfold TableDesc.width at h
  have hc : (decide (c.lookups.gates.length > 0)) = decide (c.lookups.gates ≠ []) := by
    simp [List.length_pos_iff]
  have hc' : (decide (c.copies.length > 0)) = decide (c.copies ≠ []) := by
    simp [List.length_pos_iff]
  unfold verifierPoints
  simp only [columnPoints_eq common.rotations VARIABLE_BATCH 0 0 (d.witness + d.publicInput) _ y (by omega),
    columnPoints_eq common.rotations FIXED_BATCH (common.permutedColumns.length * 2 + 2)
      (d.witness + d.publicInput) (d.constant + d.selector) _ y (by omega),
    Option.bind_eq_bind, Option.bind_some, hc, hc', pointOps, Bool.or_eq_true, decide_eq_true_eq]

theorem proverPoints_eq (L : FftLib F) (n : Nat) (d : TableDesc) (c : Circuit F) (pre : PermData F)
    (common : CommonData F H Com Data) (y : F) (h : common.rotations.length = d.width) :
    proverPoints L n d c pre common d.selector y = some (pointOps L n d c common.rotations
      common.permutationParts common.desc.usableRows (pre.sId.length + pre.sSigma.length + 2) y) := by
  unfold TableDesc.width at h
  have hc : (decide (c.lookups.gates.length > 0)) = decide (c.lookups.gates ≠ []) := by
    simp [List.length_pos_iff]
  have hc' : (decide (c.copies.length > 0)) = decide (c.copies ≠ []) := by
    simp [List.length_pos_iff]
  unfold proverPoints
  simp only [columnPoints_eq common.rotations VARIABLE_BATCH 0 0 (d.witness + d.publicInput) _ y (by omega),
    columnPoints_eq common.rotations FIXED_BATCH (pre.sId.length + pre.sSigma.length + 2)
      (d.witness + d.publicInput) (d.constant + d.selector) _ y (by omega),
    Option.bind_eq_bind, Option.bind_some, hc, hc', pointOps, Bool.or_eq_true, decide_eq_true_eq]

theorem pointOps_ops (L : FftLib F) (n : Nat) (d : TableDesc) (c : Circuit F) (rotations : List (List Int))
    (parts usable start : Nat) (y : F) : ∀ op ∈ pointOps L n d c rotations parts usable start y,
    (∃ k xs, op = .points k xs) ∨ ∃ k i xs, op = .pointsTo k i xs := by
  intro op hop
  simp only [pointOps, List.mem_append, List.mem_flatMap, List.mem_map] at hop
  rcases hop with ((((((⟨i, _, r, _, rfl⟩ | h) | h) | h) | h) | ⟨i, _, rfl⟩) | h) | ⟨i, _, r, _, rfl⟩
  · exact Or.inr ⟨_, _, _, rfl⟩
  · split_ifs at h with hc
    · rw [List.mem_singleton.1 h]; exact Or.inl ⟨_, _, rfl⟩
    · simp at h
  · split_ifs at h with hc
    · rw [List.mem_singleton.1 h]; exact Or.inr ⟨_, _, _, rfl⟩
    · simp at h
  · split_ifs at h with hc
    · simp only [List.mem_cons, List.not_mem_nil, or_false] at h
      rcases h with rfl | rfl | rfl | rfl
      · exact Or.inr ⟨_, _, _, rfl⟩
      all_goals exact Or.inl ⟨_, _, rfl⟩
    · simp at h
  · rw [List.mem_singleton.1 h]; exact Or.inl ⟨_, _, rfl⟩
  · exact Or.inr ⟨_, _, _, rfl⟩
  · simp only [List.mem_cons, List.not_mem_nil, or_false] at h
    rcases h with rfl | rfl <;> exact Or.inr ⟨_, _, _, rfl⟩
  · exact Or.inr ⟨_, _, _, rfl⟩

theorem lpcRequested_points1 (k i b : Nat) (x : F) :
    lpcRequested k i [LpcOp.points b [x]] = if b = k then [x] else [] := by simp [lpcRequested]

theorem lpcRequested_pointsTo1 (k i b j : Nat) (x : F) :
    lpcRequested k i [LpcOp.pointsTo b j [x]] = if b = k ∧ j = i then [x] else [] := by simp [lpcRequested]

theorem lpcRequested_cons (k i : Nat) (op op' : LpcOp F) (ops : List (LpcOp F)) :
    lpcRequested k i (op :: op' :: ops) = lpcRequested k i [op] ++ lpcRequested k i (op' :: ops) :=
  lpcRequested_append k i [op] (op' :: ops)

theorem lpcRequested_ite (k i : Nat) (P : Prop) [Decidable P] (ops : List (LpcOp F)) :
    lpcRequested k i (if P then ops else []) = if P then lpcRequested k i ops else [] := by
  split_ifs <;> rfl

/-- The points of each polynomial. -/
theorem pointOps_requested (L : FftLib F) (n : Nat) (d : TableDesc) (c : Circuit F)
    (rotations : List (List Int)) (parts usable start : Nat) (y : F) (i : Nat) :
    lpcRequested VARIABLE_BATCH i (pointOps L n d c rotations parts usable start y) =
      (if i < d.witness + d.publicInput then
        (rotations.getD i []).map fun r => y * (L.domain n).elem 1 ^ r else []) ∧
    lpcRequested PERMUTATION_BATCH i (pointOps L n d c rotations parts usable start y) =
      (if c.lookups.gates ≠ [] ∨ c.copies ≠ [] then [y] else []) ++
      (if c.copies ≠ [] ∧ i = 0 then [y * (L.domain n).elem 1] else []) ++
      (if c.lookups.gates ≠ [] ∧ i = parts then [y * (L.domain n).elem 1] else []) ∧
    lpcRequested LOOKUP_BATCH i (pointOps L n d c rotations parts usable start y) =
      (if c.lookups.gates ≠ [] then
        [y, y * (L.domain n).elem 1, y * (L.domain n).elem 1 ^ usable] else []) ∧
    lpcRequested QUOTIENT_BATCH i (pointOps L n d c rotations parts usable start y) = [y] ∧
    (2 ≤ start → lpcRequested FIXED_BATCH i (pointOps L n d c rotations parts usable start y) =
      if i < start then [y] ++ (if start - 2 ≤ i then [y * (L.domain n).elem 1] else [])
      else if i < start + (d.constant + d.selector) then
        (rotations.getD (d.witness + d.publicInput + (i - start)) []).map fun r =>
          y * (L.domain n).elem 1 ^ r
      else []) := by
  refine ⟨?_, ?_, ?_, ?_, fun hs => ?_⟩
  all_goals
    simp only [pointOps, lpcRequested_append, columnPoints_requested, range_requested, lpcRequested_ite,
      lpcRequested_cons, lpcRequested_points1, lpcRequested_pointsTo1]
  · simp
  · simp only [show ¬ (VARIABLE_BATCH = PERMUTATION_BATCH) by decide,
      show ¬ (LOOKUP_BATCH = PERMUTATION_BATCH) by decide, show ¬ (QUOTIENT_BATCH = PERMUTATION_BATCH) by decide,
      show ¬ (FIXED_BATCH = PERMUTATION_BATCH) by decide, false_and, if_false, true_and, if_true,
      List.append_nil, List.nil_append, ite_and, eq_comm (a := i)]
  · simp only [show ¬ (VARIABLE_BATCH = LOOKUP_BATCH) by decide,
      show ¬ (PERMUTATION_BATCH = LOOKUP_BATCH) by decide, show ¬ (QUOTIENT_BATCH = LOOKUP_BATCH) by decide,
      show ¬ (FIXED_BATCH = LOOKUP_BATCH) by decide, false_and, if_false, true_and, if_true,
      List.append_nil, List.nil_append, ite_self, List.singleton_append]
  · simp only [show ¬ (VARIABLE_BATCH = QUOTIENT_BATCH) by decide,
      show ¬ (PERMUTATION_BATCH = QUOTIENT_BATCH) by decide, show ¬ (LOOKUP_BATCH = QUOTIENT_BATCH) by decide,
      show ¬ (FIXED_BATCH = QUOTIENT_BATCH) by decide, false_and, if_false, true_and, if_true,
      List.append_nil, List.nil_append, ite_self]
  · simp only [show ¬ (VARIABLE_BATCH = FIXED_BATCH) by decide,
      show ¬ (PERMUTATION_BATCH = FIXED_BATCH) by decide, show ¬ (LOOKUP_BATCH = FIXED_BATCH) by decide,
      show ¬ (QUOTIENT_BATCH = FIXED_BATCH) by decide, false_and, if_false, true_and, if_true,
      List.append_nil, List.nil_append, ite_self]
    by_cases h1 : i < start
    · rw [if_pos h1, if_pos h1, if_neg (show ¬ (start ≤ i ∧ i < start + (d.constant + d.selector)) by omega),
        List.append_nil]
      congr 1
      by_cases h2 : start - 2 = i
      · rw [if_pos h2, if_neg (by omega), if_pos (by omega), List.append_nil]
      · rw [if_neg h2, List.nil_append]
        by_cases h3 : start - 1 = i
        · rw [if_pos h3, if_pos (by omega)]
        · rw [if_neg h3, if_neg (by omega)]
    · rw [if_neg h1, if_neg (by omega : ¬ start - 2 = i), if_neg (by omega : ¬ start - 1 = i), if_neg h1]
      simp only [List.nil_append]
      by_cases h4 : i < start + (d.constant + d.selector)
      · rw [if_pos h4, if_pos (by omega)]
      · rw [if_neg h4, if_neg (by omega)]

end Crypto3Zk
