import Verif.Lemmas.PlaceholderSession

/-!
# What the placeholder verifier reads from an honest proof
-/

set_option linter.unusedSectionVars false

namespace Crypto3Zk

open Polynomial

variable {F : Type} [Field F] [DecidableEq F] {S H Com Pr Data Obj : Type}
variable {L : FftLib F} {A n : Nat}

theorem column_append (t : PlonkTable F) (g : Nat) :
    t.column g = (t.witnesses ++ (t.publicInputs ++ (t.constants ++ t.selectors)))[g]? := by
  unfold PlonkTable.column
  dsimp only
  by_cases h1 : g < t.witnesses.length
  · rw [if_pos h1, List.getElem?_append_left h1]
  rw [if_neg h1, List.getElem?_append_right (by omega)]
  by_cases h2 : g - t.witnesses.length < t.publicInputs.length
  · rw [if_pos (by omega), if_pos h2, List.getElem?_append_left h2]
  rw [List.getElem?_append_right (by omega)]
  by_cases h3 : g - t.witnesses.length - t.publicInputs.length < t.constants.length
  · rw [if_pos (by omega), if_neg h2, if_pos h3, List.getElem?_append_left h3]
  rw [List.getElem?_append_right (by omega)]
  by_cases h4 : g - t.witnesses.length - t.publicInputs.length - t.constants.length < t.selectors.length
  · rw [if_pos (by omega), if_neg h2, if_neg h3, if_pos h4]
  · rw [if_neg (by omega), List.getElem?_eq_none (by omega)]

/-- The storage of the proof holds the values of the polynomials at the points. -/
structure HonestStorage (L : FftLib F) (n : Nat) (d : TableDesc) (c : Circuit F) (rots : List (List Int))
    (parts usable s : Nat) (y : F) (pre : PermData F) (t : PlonkTable F)
    (perm sorted vl chunks : List (List F)) (z : EvalStorage F) : Prop where
  fits : TableFits d n t
  len : rots.length = d.width
  width : d.width ≤ 2 ^ 32
  sId : pre.sId.length = s
  sSigma : pre.sSigma.length = s
  small : s ≤ d.width
  zeros : ∀ g < d.width, (0 : Int) ∈ rots.getD g []
  find : ∀ k, (k = FIXED_BATCH ∨ k = VARIABLE_BATCH ∨ (c.lookups.gates ≠ [] ∧ k = LOOKUP_BATCH) ∨
      ((c.copies ≠ [] ∨ c.lookups.gates ≠ []) ∧ k = PERMUTATION_BATCH) ∨ k = QUOTIENT_BATCH) →
    z.find k = some ((honestPolys L pre t perm sorted vl chunks k).mapIdx fun i p =>
      (lpcRequested k i (pointOps L n d c rots parts usable (s * 2 + 2) y)).map (evalPoly p))

section

variable {d : TableDesc} {c : Circuit F} {rots : List (List Int)} {parts usable s : Nat} {y : F}
variable {pre : PermData F} {t : PlonkTable F} {perm sorted vl chunks : List (List F)} {z : EvalStorage F}

theorem get_of_find {k : Nat} {P : List (List F)} {R : Nat → List F}
    (h : z.find k = some (P.mapIdx fun i p => (R i).map (evalPoly p))) {i j : Nat} {p : List F} {x : F}
    (hp : P[i]? = some p) (hx : (R i)[j]? = some x) : z.get k i j = some (evalPoly p x) := by
  simp [EvalStorage.get, EvalStorage.getPoly, h, hp, hx]

namespace HonestStorage

variable (h : HonestStorage L n d c rots parts usable s y pre t perm sorted vl chunks z)
include h

theorem fixed_col (i : Nat) : (honestPolys L pre t perm sorted vl chunks FIXED_BATCH)[s * 2 + 2 + i]? =
    ((t.constants ++ t.selectors)[i]?).map L.coefficients := by
  simp only [FIXED_BATCH, honestPolys]
  have h1 := h.sId
  have h2 := h.sSigma
  rw [List.getElem?_append_right (by omega), List.getElem?_append_right (by omega),
    List.getElem?_append_right (by simp; omega), List.getElem?_append_right (by simp; omega),
    ← List.map_append, List.getElem?_map]
  congr 2
  simp
  omega

theorem variable_col (i : Nat) : (honestPolys L pre t perm sorted vl chunks VARIABLE_BATCH)[i]? =
    ((t.witnesses ++ t.publicInputs)[i]?).map L.coefficients := by
  simp only [VARIABLE_BATCH, honestPolys]
  rw [← List.map_append, List.getElem?_map]

omit h in
theorem point_eq (r : Int) : y * (L.domain n).elem 1 ^ r = L.root n ^ r * y := by
  simp [FftLib.domain, mul_comm]

/-- Reading a column of the table. -/
theorem column {g j : Nat} {col : List F} {r : Int} (hg : t.column g = some col)
    (hj : (rots.getD g [])[j]? = some r) :
    (g < d.witness + d.publicInput → z.get VARIABLE_BATCH g j = some ((dfsPoly L col).eval (L.root n ^ r * y))) ∧
    (d.witness + d.publicInput ≤ g → z.get FIXED_BATCH (s * 2 + 2 + (g - (d.witness + d.publicInput))) j =
      some ((dfsPoly L col).eval (L.root n ^ r * y))) := by
  rw [column_append] at hg
  have hw := h.fits.witness
  have hp := h.fits.publicInput
  have hc := h.fits.constant
  have hs := h.fits.selector
  refine ⟨fun hlt => ?_, fun hge => ?_⟩
  · rw [← List.append_assoc, List.getElem?_append_left (by simp; omega)] at hg
    rw [dfsPoly, eval_toPoly]
    refine get_of_find (h.find _ (Or.inr (Or.inl rfl))) (p := L.coefficients col) ?_ ?_
    · rw [h.variable_col, hg]; rfl
    · rw [(pointOps_requested L n d c rots parts usable (s * 2 + 2) y g).1, if_pos hlt, List.getElem?_map, hj, Option.map_some, point_eq]
  · have hlt : g < d.width := by
      obtain ⟨hlt, -⟩ := List.getElem?_eq_some_iff.1 hg
      simp only [List.length_append] at hlt
      unfold TableDesc.width
      omega
    rw [← List.append_assoc, List.getElem?_append_right (by simp; omega)] at hg
    rw [dfsPoly, eval_toPoly]
    refine get_of_find (h.find _ (Or.inl rfl)) (p := L.coefficients col) ?_ ?_
    · rw [h.fixed_col]
      have : g - (d.witness + d.publicInput) = g - (t.witnesses ++ t.publicInputs).length := by
        simp; omega
      rw [this, hg]; rfl
    · unfold TableDesc.width at hlt
      rw [(pointOps_requested L n d c rots parts usable (s * 2 + 2) y _).2.2.2.2 (by omega), if_neg (by omega), if_pos (by omega)]
      have : d.witness + d.publicInput + (s * 2 + 2 + (g - (d.witness + d.publicInput)) - (s * 2 + 2)) = g := by
        omega
      rw [this, List.getElem?_map, hj, Option.map_some, point_eq]

theorem fixed_length : (honestPolys L pre t perm sorted vl chunks FIXED_BATCH).length =
    s * 2 + 2 + (d.constant + d.selector) := by
  simp only [FIXED_BATCH, honestPolys, List.length_append, List.length_map, List.length_singleton, h.sId,
    h.sSigma, h.fits.constant, h.fits.selector]
  omega

theorem permSize : ∃ m, z.batchSize FIXED_BATCH = some m ∧ permutationSize m d.constant d.selector = s := by
  refine ⟨s * 2 + 2 + (d.constant + d.selector), ?_, ?_⟩
  · rw [EvalStorage.batchSize, h.find _ (Or.inl rfl), Option.map_some, List.length_mapIdx, h.fixed_length]
  · have := h.small
    have := h.width
    unfold permutationSize
    omega

theorem sizes : sizeOps z c = some (honestSizes c (honestPolys L pre t perm sorted vl chunks)) := by
  have hb : ∀ k, _ → z.batchSize k = some (honestPolys L pre t perm sorted vl chunks k).length :=
    fun k hk => by rw [EvalStorage.batchSize, h.find k hk, Option.map_some, List.length_mapIdx]
  unfold sizeOps honestSizes
  rw [hb VARIABLE_BATCH (by simp), hb QUOTIENT_BATCH (by simp)]
  by_cases h1 : c.lookups.gates = [] <;> by_cases h2 : c.copies = []
  · simp [h1, h2]
  · rw [hb PERMUTATION_BATCH (by simp [h2])]
    simp [h1, h2, List.length_pos_iff]
  · rw [hb PERMUTATION_BATCH (by simp [h1]), hb LOOKUP_BATCH (by simp [h1])]
    simp [h1, h2, List.length_pos_iff]
  · rw [hb PERMUTATION_BATCH (by simp [h1]), hb LOOKUP_BATCH (by simp [h1])]
    simp [h1, h2, List.length_pos_iff]

theorem special {i : Nat} (hi : i < s * 2 + 2) {p : List F}
    (hp : (honestPolys L pre t perm sorted vl chunks FIXED_BATCH)[i]? = some p) :
    z.get FIXED_BATCH i 0 = some (evalPoly p y) ∧
    (s * 2 ≤ i → z.get FIXED_BATCH i 1 = some (evalPoly p (L.root n * y))) := by
  refine ⟨get_of_find (h.find _ (Or.inl rfl)) hp ?_, fun hge => get_of_find (h.find _ (Or.inl rfl)) hp ?_⟩
  · rw [(pointOps_requested L n d c rots parts usable (s * 2 + 2) y _).2.2.2.2 (by omega), if_pos hi]; rfl
  · rw [(pointOps_requested L n d c rots parts usable (s * 2 + 2) y _).2.2.2.2 (by omega), if_pos hi, if_pos (by omega)]
    simp [FftLib.domain, mul_comm]

theorem qLast : z.get FIXED_BATCH (2 * s) 0 = some (evalPoly pre.qLast y) ∧
    z.get FIXED_BATCH (2 * s) 1 = some (evalPoly pre.qLast (L.root n * y)) := by
  have h1 := h.sId
  have h2 := h.sSigma
  have := h.special (i := 2 * s) (by omega) (p := pre.qLast) (by
    simp only [FIXED_BATCH, honestPolys]
    rw [List.getElem?_append_right (by omega), List.getElem?_append_right (by omega)]
    rw [show 2 * s - pre.sId.length - pre.sSigma.length = 0 by omega]
    rfl)
  exact ⟨this.1, this.2 (by omega)⟩

theorem qBlind : z.get FIXED_BATCH (2 * s + 1) 0 = some (evalPoly pre.qBlind y) ∧
    z.get FIXED_BATCH (2 * s + 1) 1 = some (evalPoly pre.qBlind (L.root n * y)) := by
  have h1 := h.sId
  have h2 := h.sSigma
  have := h.special (i := 2 * s + 1) (by omega) (p := pre.qBlind) (by
    simp only [FIXED_BATCH, honestPolys]
    rw [List.getElem?_append_right (by omega), List.getElem?_append_right (by omega)]
    rw [show 2 * s + 1 - pre.sId.length - pre.sSigma.length = 1 by omega]
    rfl)
  exact ⟨this.1, this.2 (by omega)⟩

theorem readPermuted_eq {g : Nat} {col : List F} (hg : t.column g = some col) :
    readPermuted z d rots s g = some ((dfsPoly L col).eval y) := by
  have hlt : g < d.width := by
    rw [column_append] at hg
    obtain ⟨hlt, -⟩ := List.getElem?_eq_some_iff.1 hg
    have hw := h.fits.witness
    have hp := h.fits.publicInput
    have hc := h.fits.constant
    have hs := h.fits.selector
    simp only [List.length_append] at hlt
    unfold TableDesc.width
    omega
  have hz := h.zeros g hlt
  have hl : g < rots.length := by rw [h.len]; exact hlt
  have hr : rots[g]? = some (rots.getD g []) := by
    rw [List.getD_eq_getElem?_getD, List.getElem?_eq_getElem hl]; rfl
  have hi : (rots.getD g [])[(rots.getD g []).idxOf 0]? = some 0 := by
    rw [List.getElem?_eq_getElem (List.idxOf_lt_length_of_mem hz), List.getElem_idxOf]
  obtain ⟨h1, h2⟩ := h.column hg hi
  rw [zpow_zero, one_mul] at h1 h2
  unfold readPermuted
  rw [hr]
  simp only [Option.bind_eq_bind, Option.bind_some]
  by_cases hv : g < d.witness + d.publicInput
  · rw [if_pos hv]; exact h1 hv
  · rw [if_neg hv]
    have e : fixedIndex s (g - d.witness - d.publicInput) = s * 2 + 2 + (g - (d.witness + d.publicInput)) := by
      have := h.small
      have := h.width
      unfold fixedIndex
      omega
    rw [e]; exact h2 (by omega)

theorem readColumns_eq (batch base count : Nat) (index : Nat → Nat) (type : ColumnType) (val : Nat → Int → F)
    (hb : base + count ≤ d.width)
    (hv : ∀ i < count, ∀ j r, (rots.getD (base + i) [])[j]? = some r →
      z.get batch (index i) j = some (val i r)) :
    readColumns z rots batch base count index type = some ((List.range count).flatMap fun i =>
      (rots.getD (base + i) []).map fun r => ((i, r, type), val i r)) := by
  unfold readColumns
  rw [mapM_eq_some_map _ (fun i => (rots.getD (base + i) []).map fun r => ((i, r, type), val i r))]
  · simp [List.flatMap_def]
  intro i hi
  have hi := List.mem_range.1 hi
  have hl : base + i < rots.length := by rw [h.len]; omega
  have hr : rots[base + i]? = some (rots.getD (base + i) []) := by
    rw [List.getD_eq_getElem?_getD, List.getElem?_eq_getElem hl]; rfl
  rw [hr]
  simp only [Option.bind_eq_bind, Option.bind_some]
  rw [mapM_eq_some_map _ (fun e : Int × Nat => ((i, e.1, type), val i e.1))]
  · congr 1
    rw [show (fun e : Int × Nat => ((i, e.1, type), val i e.1)) =
      (fun r : Int => ((i, r, type), val i r)) ∘ Prod.fst from rfl, ← List.map_map, List.zipIdx_map_fst]
  · intro e he
    have := List.mem_zipIdx_iff_getElem?.1 he
    rw [hv i hi e.2 e.1 this]
    rfl

end HonestStorage

theorem find_functional {K V : Type} [DecidableEq K] (f : K → V) (m : List (K × V))
    (h : ∀ e ∈ m, e.2 = f e.1) (k : K) (hk : ∃ e ∈ m, e.1 = k) :
    (m.find? fun e => decide (e.1 = k)).map Prod.snd = some (f k) := by
  obtain ⟨e, he, hek⟩ := hk
  cases hf : m.find? fun e => decide (e.1 = k) with
  | none =>
    have := List.find?_eq_none.1 hf e he
    simp [hek] at this
  | some e' =>
    have h1 := List.find?_some hf
    have h2 := List.mem_of_find?_eq_some hf
    simp only [decide_eq_true_eq] at h1
    rw [Option.map_some, h e' h2, h1]

theorem columnPoly_column (h : TableFits d n t) {v : PlonkVar} {g : Nat}
    (hv : d.HasColumn v) (hg : d.globalIndex v = some g) :
    g < d.width ∧ ∃ col, t.column g = some col ∧ dfsPoly L col = columnPoly L t v.index v.type := by
  have hw := h.witness
  have hp := h.publicInput
  have hc := h.constant
  have hs := h.selector
  obtain ⟨i, r, rel, ty⟩ := v
  cases ty <;> simp only [TableDesc.HasColumn, TableDesc.globalIndex, Option.some.injEq] at hv hg
  · subst hg
    refine ⟨by unfold TableDesc.width; omega, t.witnesses.getD i [], ?_, rfl⟩
    rw [column_append, List.getElem?_append_left (by omega), List.getElem?_eq_getElem (by omega),
      List.getD_eq_getElem _ _ (by omega)]
  · subst hg
    refine ⟨by unfold TableDesc.width; omega, t.publicInputs.getD i [], ?_, rfl⟩
    rw [column_append, List.getElem?_append_right (by omega), List.getElem?_append_left (by omega),
      List.getD_eq_getElem?_getD, List.getElem?_eq_getElem (by omega), List.getElem?_eq_getElem (by omega),
      Option.getD_some]
    congr 2; omega
  · subst hg
    refine ⟨by unfold TableDesc.width; omega, t.constants.getD i [], ?_, rfl⟩
    rw [column_append, List.getElem?_append_right (by omega), List.getElem?_append_right (by omega),
      List.getElem?_append_left (by omega),
      List.getD_eq_getElem?_getD, List.getElem?_eq_getElem (by omega), List.getElem?_eq_getElem (by omega),
      Option.getD_some]
    congr 2; omega
  · subst hg
    refine ⟨by unfold TableDesc.width; omega, t.selectors.getD i [], ?_, rfl⟩
    rw [column_append, List.getElem?_append_right (by omega), List.getElem?_append_right (by omega),
      List.getElem?_append_right (by omega),
      List.getD_eq_getElem?_getD, List.getElem?_eq_getElem (by omega), List.getElem?_eq_getElem (by omega),
      Option.getD_some]
    congr 2; omega

namespace HonestStorage

variable (h : HonestStorage L n d c rots parts usable s y pre t perm sorted vl chunks z)
include h

/-- `columns_at_y` holds the values of the columns. -/
theorem columnsAtY_eq : ∃ ev, columnsAtY z d rots s = some ev ∧ ∀ v : PlonkVar, d.HasColumn v →
    ∀ g, d.globalIndex v = some g → v.rotation ∈ rots.getD g [] →
    ev v.index v.rotation v.type =
      some ((columnPoly L t v.index v.type).eval (L.root n ^ v.rotation * y)) := by
  have hsm := h.small
  have hwd := h.width
  have hcol : ∀ (v : PlonkVar) (g : Nat), d.HasColumn v → d.globalIndex v = some g → ∀ (j : Nat) (r : Int),
      (rots.getD g [])[j]? = some r →
      (g < d.witness + d.publicInput → z.get VARIABLE_BATCH g j =
        some ((columnPoly L t v.index v.type).eval (L.root n ^ r * y))) ∧
      (d.witness + d.publicInput ≤ g → z.get FIXED_BATCH (s * 2 + 2 + (g - (d.witness + d.publicInput))) j =
        some ((columnPoly L t v.index v.type).eval (L.root n ^ r * y))) := by
    intro v g hv hg j r hj
    obtain ⟨_, col, hc, he⟩ := columnPoly_column (L := L) h.fits hv hg
    rw [← he]
    exact h.column hc hj
  unfold columnsAtY
  rw [h.readColumns_eq VARIABLE_BATCH 0 d.witness (fun i => i) .witness
      (fun i r => (columnPoly L t i .witness).eval (L.root n ^ r * y)) (by unfold TableDesc.width; omega) (by
        intro i hi j r hr
        rw [Nat.zero_add] at hr
        exact (hcol ⟨i, 0, true, .witness⟩ i hi rfl j r hr).1 (by omega)),
    h.readColumns_eq VARIABLE_BATCH d.witness d.publicInput (fun i => d.witness + i) .publicInput
      (fun i r => (columnPoly L t i .publicInput).eval (L.root n ^ r * y)) (by unfold TableDesc.width; omega) (by
        intro i hi j r hr
        exact (hcol ⟨i, 0, true, .publicInput⟩ (d.witness + i) hi (by simp [TableDesc.globalIndex]; try omega)
          j r hr).1 (by omega)),
    h.readColumns_eq FIXED_BATCH (d.witness + d.publicInput) d.constant (fun i => fixedIndex s i) .constant
      (fun i r => (columnPoly L t i .constant).eval (L.root n ^ r * y)) (by unfold TableDesc.width; omega) (by
        intro i hi j r hr
        have := (hcol ⟨i, 0, true, .constant⟩ (d.witness + d.publicInput + i) hi
          (by simp [TableDesc.globalIndex]; try omega) j r hr).2 (by omega)
        rw [← this]
        congr 1
        unfold fixedIndex
        unfold TableDesc.width at hwd hsm
        omega),
    h.readColumns_eq FIXED_BATCH (d.witness + d.constant + d.publicInput) d.selector
      (fun i => fixedIndex s (i + d.constant)) .selector
      (fun i r => (columnPoly L t i .selector).eval (L.root n ^ r * y)) (by unfold TableDesc.width; omega) (by
        intro i hi j r hr
        have := (hcol ⟨i, 0, true, .selector⟩ (d.witness + d.constant + d.publicInput + i) hi
          (by simp [TableDesc.globalIndex]; try omega) j r hr).2 (by omega)
        rw [← this]
        congr 1
        unfold fixedIndex
        unfold TableDesc.width at hwd hsm
        omega)]
  simp only [Option.bind_eq_bind, Option.bind_some]
  refine ⟨_, rfl, ?_⟩
  intro v hv g hg hr
  refine find_functional (fun k : Nat × Int × ColumnType =>
    (columnPoly L t k.1 k.2.2).eval (L.root n ^ k.2.1 * y)) _ ?_ (v.index, v.rotation, v.type) ?_
  · intro e he
    simp only [List.mem_append, List.mem_flatMap, List.mem_map] at he
    rcases he with ((⟨i, _, r, _, rfl⟩ | ⟨i, _, r, _, rfl⟩) | ⟨i, _, r, _, rfl⟩) | ⟨i, _, r, _, rfl⟩ <;> rfl
  · obtain ⟨i, r, rel, ty⟩ := v
    simp only [List.mem_append, List.mem_flatMap, List.mem_map, List.mem_range]
    cases ty <;> simp only [TableDesc.HasColumn, TableDesc.globalIndex, Option.some.injEq] at hv hg
    · subst hg
      exact ⟨_, Or.inl (Or.inl (Or.inl ⟨i, hv, r, by rw [Nat.zero_add]; exact hr, rfl⟩)), rfl⟩
    · refine ⟨_, Or.inl (Or.inl (Or.inr ⟨i, hv, r, ?_, rfl⟩)), rfl⟩
      rw [show d.witness + i = g by omega]; exact hr
    · refine ⟨_, Or.inl (Or.inr ⟨i, hv, r, ?_, rfl⟩), rfl⟩
      rw [show d.witness + d.publicInput + i = g by omega]; exact hr
    · refine ⟨_, Or.inr ⟨i, hv, r, ?_, rfl⟩, rfl⟩
      rw [show d.witness + d.constant + d.publicInput + i = g by omega]; exact hr

/-- The values for the permutation argument. -/
theorem permClaims {common : CommonData F H Com Data} (hrots : common.rotations = rots)
    (hparts : common.permutationParts = parts)
    (hgl : common.permutedColumns.length = s) {cols : List (List F)}
    (hcols : common.permutedColumns.mapM (fun i => (t.column i).map L.coefficients) = some cols)
    {V : List F} {partitions : List (List F)} (hperm : perm = V :: partitions)
    (hpl : partitions.length = parts - 1) (hcopies : c.copies ≠ []) (hp0 : parts ≠ 0) :
    readPermClaims z d common s (evalPoly pre.qLast y) (evalPoly pre.qBlind y) =
      some (trueClaims L n pre cols V partitions y) := by
  have h1 := h.sId
  have h2 := h.sSigma
  have hf := h.find PERMUTATION_BATCH (by simp [hcopies])
  have hP : ∀ i : Nat, (honestPolys L pre t perm sorted vl chunks PERMUTATION_BATCH)[i]? =
      (V :: partitions ++ vl.map L.coefficients)[i]? := by
    intro i; rw [← hperm]; rfl
  have e1 : (List.range s).mapM (fun i => z.get FIXED_BATCH i 0) = some (pre.sId.map (evalPoly · y)) := by
    rw [mapM_eq_some_map _ (fun i => evalPoly (pre.sId.getD i []) y)]
    · congr 1
      apply List.ext_getElem
      · simp [h1]
      · intro i hi hi'
        simp only [List.length_map] at hi'
        simp [List.getElem?_eq_getElem hi']
    · intro i hi
      have hi := List.mem_range.1 hi
      refine (h.special (by omega) ?_).1
      simp only [FIXED_BATCH, honestPolys]
      rw [List.getElem?_append_left (by omega), List.getElem?_eq_getElem (by omega),
        List.getD_eq_getElem _ _ (by omega)]
  have e2 : (List.range s).mapM (fun i => z.get FIXED_BATCH (s + i) 0) =
      some (pre.sSigma.map (evalPoly · y)) := by
    rw [mapM_eq_some_map _ (fun i => evalPoly (pre.sSigma.getD i []) y)]
    · congr 1
      apply List.ext_getElem
      · simp [h2]
      · intro i hi hi'
        simp only [List.length_map] at hi'
        simp [List.getElem?_eq_getElem hi']
    · intro i hi
      have hi := List.mem_range.1 hi
      refine (h.special (by omega) ?_).1
      simp only [FIXED_BATCH, honestPolys]
      rw [List.getElem?_append_right (by omega), List.getElem?_append_left (by omega),
        show s + i - pre.sId.length = i by omega, List.getElem?_eq_getElem (by omega),
        List.getD_eq_getElem _ _ (by omega)]
  have hcl : cols.length = s := by rw [length_mapM _ _ _ hcols, hgl]
  have hcf := forall₂_of_mapM _ _ _ hcols
  have e3 : (List.range s).mapM (fun i => do
      let col ← common.permutedColumns[i]?
      readPermuted z d common.rotations s col) = some (cols.map (evalPoly · y)) := by
    rw [mapM_eq_some_map _ (fun i => evalPoly (cols.getD i []) y)]
    · congr 1
      apply List.ext_getElem
      · simp [hcl]
      · intro i hi hi'
        simp only [List.length_map] at hi'
        simp [List.getElem?_eq_getElem hi']
    · intro i hi
      have hi := List.mem_range.1 hi
      have hg : i < common.permutedColumns.length := by omega
      have hi' : i < cols.length := by omega
      have := (List.forall₂_iff_get.1 hcf).2 i hg hi'
      simp only [List.get_eq_getElem] at this
      obtain ⟨col, hc1, hc2⟩ := Option.map_eq_some_iff.1 this
      rw [List.getElem?_eq_getElem hg]
      simp only [Option.bind_eq_bind, Option.bind_some]
      rw [hrots, h.readPermuted_eq hc1, List.getD_eq_getElem _ _ hi', ← hc2, dfsPoly, eval_toPoly]
  have e4 : (List.range (common.permutationParts - 1)).mapM (fun i => z.get PERMUTATION_BATCH (i + 1) 0) =
      some (partitions.map (evalPoly · y)) := by
    rw [mapM_eq_some_map _ (fun i => evalPoly (partitions.getD i []) y)]
    · congr 1
      apply List.ext_getElem
      · simp [hpl, hparts]
      · intro i hi hi'
        simp only [List.length_map] at hi'
        simp [List.getElem?_eq_getElem hi']
    · intro i hi
      have hi := List.mem_range.1 hi
      have hi' : i < partitions.length := by omega
      refine get_of_find hf (p := partitions.getD i []) ?_ ?_
      · rw [hP, List.cons_append, List.getElem?_cons_succ, List.getElem?_append_left hi',
          List.getElem?_eq_getElem hi', List.getD_eq_getElem _ _ hi']
      · rw [(pointOps_requested L n d c rots parts usable (s * 2 + 2) y _).2.1, if_pos (Or.inr hcopies)]; rfl
  have e5 : z.get PERMUTATION_BATCH 0 0 = some (evalPoly V y) := by
    refine get_of_find hf (by rw [hP]; rfl) ?_
    rw [(pointOps_requested L n d c rots parts usable (s * 2 + 2) y _).2.1, if_pos (Or.inr hcopies)]; rfl
  have e6 : z.get PERMUTATION_BATCH 0 1 = some (evalPoly V (L.root n * y)) := by
    refine get_of_find hf (by rw [hP]; rfl) ?_
    rw [(pointOps_requested L n d c rots parts usable (s * 2 + 2) y _).2.1, if_pos (Or.inr hcopies), if_pos ⟨hcopies, rfl⟩]
    simp [FftLib.domain, mul_comm]
  unfold readPermClaims
  rw [e1, e2, e3, e4, e5, e6]
  rfl

/-- The values for the lookup argument. -/
theorem lookupClaims {common : CommonData F H Com Data} {mqc lp : Nat}
    (hparts : common.permutationParts = parts) (hpl : perm.length = parts)
    (hgl : common.permutedColumns.length = s) (hlp : common.lookupParts = lp)
    {V : List F} {partitions : List (List F)} (hvl : vl = V :: partitions)
    (hlpl : partitions.length = lp - 1) (hlook : c.lookups.gates ≠ [])
    (hmqc : pre.usableRows = usable) :
    readLookupClaims z common (evalPoly pre.lagrange0 y) (evalPoly pre.qLast y) (evalPoly pre.qBlind y) =
      some (trueLookupClaims L n (lookupData pre) sorted V partitions y) := by
  have hf := h.find PERMUTATION_BATCH (by simp [hlook])
  have hfl := h.find LOOKUP_BATCH (by simp [hlook])
  have hP : ∀ i, (honestPolys L pre t perm sorted vl chunks PERMUTATION_BATCH)[parts + i]? =
      ((V :: partitions)[i]?).map L.coefficients := by
    intro i
    simp only [PERMUTATION_BATCH, honestPolys]
    rw [List.getElem?_append_right (by omega), hvl, List.getElem?_map]
    congr 2; omega
  have e4 : (List.range (common.lookupParts - 1)).mapM (fun i =>
      z.get PERMUTATION_BATCH (common.permutationParts + 1 + i) 0) =
      some (partitions.map fun p => (dfsPoly L p).eval y) := by
    rw [mapM_eq_some_map _ (fun i => (dfsPoly L (partitions.getD i [])).eval y)]
    · congr 1
      apply List.ext_getElem
      · simp [hlpl, hlp]
      · intro i hi hi'
        simp only [List.length_map] at hi'
        simp [List.getElem?_eq_getElem hi']
    · intro i hi
      have hi := List.mem_range.1 hi
      have hi' : i < partitions.length := by omega
      rw [dfsPoly, eval_toPoly]
      refine get_of_find hf (p := L.coefficients (partitions.getD i [])) ?_ ?_
      · rw [hparts, show parts + 1 + i = parts + (i + 1) by omega, hP, List.getElem?_cons_succ,
          List.getElem?_eq_getElem hi', List.getD_eq_getElem _ _ hi']
        rfl
      · rw [(pointOps_requested L n d c rots parts usable (s * 2 + 2) y _).2.1, if_pos (Or.inl hlook)]; rfl
  have e5 : z.get PERMUTATION_BATCH common.permutationParts 0 = some ((dfsPoly L V).eval y) := by
    rw [dfsPoly, eval_toPoly]
    refine get_of_find hf (by rw [hparts, ← Nat.add_zero parts, hP]; rfl) ?_
    rw [(pointOps_requested L n d c rots parts usable (s * 2 + 2) y _).2.1, if_pos (Or.inl hlook)]; rfl
  have e6 : z.get PERMUTATION_BATCH common.permutationParts 1 = some ((dfsPoly L V).eval (L.root n * y)) := by
    rw [dfsPoly, eval_toPoly]
    refine get_of_find hf (by rw [hparts, ← Nat.add_zero parts, hP]; rfl) ?_
    rw [(pointOps_requested L n d c rots parts usable (s * 2 + 2) y _).2.1, if_pos (Or.inl hlook), hparts, if_pos (⟨hlook, rfl⟩ : _ ∧ parts = parts)]
    by_cases hc : c.copies ≠ [] ∧ parts = 0
    · rw [if_pos hc]; simp [FftLib.domain, mul_comm]
    · rw [if_neg hc]; simp [FftLib.domain, mul_comm]
  have e7 : ((z.find LOOKUP_BATCH).bind fun l => l.mapM fun vs => (do
      some ((← vs[0]?), (← vs[1]?), (← vs[2]?)) : Option (F × F × F))) =
      some (sorted.map fun c => ((dfsPoly L c).eval y, (dfsPoly L c).eval (L.root n * y),
        (dfsPoly L c).eval (L.root n ^ usable * y))) := by
    rw [hfl, Option.bind_some]
    have hm : (honestPolys L pre t perm sorted vl chunks LOOKUP_BATCH).mapIdx (fun i p =>
        (lpcRequested LOOKUP_BATCH i (pointOps L n d c rots parts usable (s * 2 + 2) y)).map (evalPoly p)) =
        sorted.map fun c => [(dfsPoly L c).eval y, (dfsPoly L c).eval (L.root n * y),
          (dfsPoly L c).eval (L.root n ^ usable * y)] := by
      simp only [LOOKUP_BATCH, honestPolys]
      apply List.ext_getElem
      · simp
      · intro i hi hi'
        simp only [List.getElem_mapIdx, List.getElem_map]
        have := (pointOps_requested L n d c rots parts usable (s * 2 + 2) y i).2.2.1
        rw [if_pos hlook] at this
        rw [this]
        simp [FftLib.domain, mul_comm, dfsPoly, eval_toPoly]
    rw [hm]
    rw [List.mapM_map]
    rw [mapM_eq_some_map _ (fun c => ((dfsPoly L c).eval y, (dfsPoly L c).eval (L.root n * y),
        (dfsPoly L c).eval (L.root n ^ usable * y)))]
    intro c _
    rfl
  unfold readLookupClaims
  dsimp only
  rw [hgl, h.qLast.2, h.qBlind.2, e4, e5, e6]
  simp only [Option.bind_eq_bind, Option.bind_some] at e7 ⊢
  cases hzz : z.find LOOKUP_BATCH with
  | none => rw [hzz] at hfl; simp at hfl
  | some l =>
    rw [hzz, Option.bind_some] at e7
    simp only [Option.bind_some]
    rw [e7]
    simp [trueLookupClaims, lookupData, eval_toPoly, hmqc]

/-- The values of the chunks of the quotient. -/
theorem quotient : z.batchSize QUOTIENT_BATCH = some chunks.length ∧
    (List.range chunks.length).mapM (fun i => z.get QUOTIENT_BATCH i 0) = some (chunks.map (evalPoly · y)) := by
  have hf := h.find QUOTIENT_BATCH (by simp)
  refine ⟨?_, ?_⟩
  · rw [EvalStorage.batchSize, hf, Option.map_some, List.length_mapIdx]; rfl
  · rw [mapM_eq_some_map _ (fun i => evalPoly (chunks.getD i []) y)]
    · congr 1
      apply List.ext_getElem
      · simp
      · intro i hi hi'
        simp only [List.length_map] at hi'
        simp [List.getElem?_eq_getElem hi']
    · intro i hi
      have hi := List.mem_range.1 hi
      refine get_of_find hf (p := chunks.getD i []) ?_ ?_
      · show chunks[i]? = _
        rw [List.getElem?_eq_getElem hi, List.getD_eq_getElem _ _ hi]
      · rw [(pointOps_requested L n d c rots parts usable (s * 2 + 2) y _).2.2.2.1]; rfl

end HonestStorage

end

end Crypto3Zk
