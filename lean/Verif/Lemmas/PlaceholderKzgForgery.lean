import Verif.Lemmas.PlaceholderKzgPadded
import Verif.Lemmas.PlaceholderAnyProver
import Verif.Lemmas.PlaceholderFinal

/-!
# What the verifier reads from a proof with more fixed values

The number of permuted columns is computed from the number of fixed values in the proof (verifier.hpp:210), and
the positions of the constants and selectors from it (verifier.hpp:294, 307).
-/

set_option linter.unusedSectionVars false

namespace Crypto3Zk

open Polynomial

variable {F : Type} [Field F] [DecidableEq F]
variable {L : FftLib F} {A n : Nat}

/-- zeros for all constants and selectors, twice, and for `m` points -/
def zeroValues (d : TableDesc) (m : Nat) : List (List F) :=
  List.replicate (2 * (d.constant + d.selector)) (List.replicate m 0)

/-- What the verifier takes for the value of a variable if it is shown zeros for the constants and selectors. -/
noncomputable def blankedValue (L : FftLib F) (n : Nat) (t : PlonkTable F) (y : F) (k : Nat × Int × ColumnType) : F :=
  match k.2.2 with
  | .witness => (columnPoly L t k.1 .witness).eval (L.root n ^ k.2.1 * y)
  | .publicInput => (columnPoly L t k.1 .publicInput).eval (L.root n ^ k.2.1 * y)
  | _ => 0

theorem readColumns_of {z : EvalStorage F} {rots : List (List Int)} (batch base count : Nat) (index : Nat → Nat)
    (type : ColumnType) (val : Nat → Int → F) (hb : base + count ≤ rots.length)
    (hv : ∀ i < count, ∀ j r, (rots.getD (base + i) [])[j]? = some r →
      z.get batch (index i) j = some (val i r)) :
    readColumns z rots batch base count index type = some ((List.range count).flatMap fun i =>
      (rots.getD (base + i) []).map fun r => ((i, r, type), val i r)) := by
  unfold readColumns
  rw [mapM_eq_some_map _ (fun i => (rots.getD (base + i) []).map fun r => ((i, r, type), val i r))]
  · simp [List.flatMap_def]
  intro i hi
  have hi := List.mem_range.1 hi
  have hl : base + i < rots.length := by omega
  have hr : rots[base + i]? = some (rots.getD (base + i) []) := by
    rw [List.getD_eq_getElem?_getD, List.getElem?_eq_getElem hl]; rfl
  rw [hr]
  simp only [Option.bind_eq_bind, Option.bind_some]
  rw [mapM_eq_some_map _ (fun e : Int × Nat => ((i, e.1, type), val i e.1))]
  · congr 1
    rw [show (fun e : Int × Nat => ((i, e.1, type), val i e.1)) =
      (fun r : Int => ((i, r, type), val i r)) ∘ Prod.fst from rfl, ← List.map_map, List.zipIdx_map_fst]
  · intro e he
    have := List.mem_zipIdx_iff_getElem?.1 he
    rw [hv i hi e.2 e.1 this]
    rfl

section

variable {d : TableDesc} {c : Circuit F} {rots : List (List Int)} {parts usable s : Nat} {y : F}
variable {pre : PermData F} {t : PlonkTable F} {perm sorted vl chunks : List (List F)} {z : EvalStorage F}

/-- the number of permuted columns that the verifier computes -/
theorem padded_permSize (h : HonestStorage L n d c rots parts usable s y pre t perm sorted vl chunks z) (m : Nat) :
    ∃ k, (padStorage FIXED_BATCH (zeroValues d m) z).batchSize FIXED_BATCH = some k ∧
      permutationSize k d.constant d.selector = s + (d.constant + d.selector) := by
  have hf := h.find FIXED_BATCH (Or.inl rfl)
  have hl := h.fixed_length
  refine ⟨s * 2 + 2 + (d.constant + d.selector) + 2 * (d.constant + d.selector), ?_, ?_⟩
  · unfold EvalStorage.batchSize
    rw [find_padStorage, if_pos rfl]
    simp [OMap.getD, hf, hl, zeroValues]
  · have := h.small
    have := h.width
    unfold TableDesc.width at *
    unfold permutationSize
    omega

/-- the values after those of the fixed polynomials -/
theorem padded_zero (h : HonestStorage L n d c rots parts usable s y pre t perm sorted vl chunks z) (m i j : Nat)
    (hi : i < d.constant + d.selector) (hj : j < m) :
    (padStorage FIXED_BATCH (zeroValues d m) z).get FIXED_BATCH
      (fixedIndex (s + (d.constant + d.selector)) i) j = some 0 := by
  have hf := h.find FIXED_BATCH (Or.inl rfl)
  have hl := h.fixed_length
  have he : fixedIndex (s + (d.constant + d.selector)) i =
      (s * 2 + 2 + (d.constant + d.selector)) + (i + (d.constant + d.selector)) := by
    have := h.small
    have := h.width
    unfold TableDesc.width at *
    unfold fixedIndex
    omega
  unfold EvalStorage.get EvalStorage.getPoly
  rw [find_padStorage, if_pos rfl, he]
  simp only [OMap.getD, hf, Option.getD_some, Option.bind_eq_bind, Option.bind_some]
  rw [List.getElem?_append_right (by rw [List.length_mapIdx, hl]; omega), List.length_mapIdx, hl,
    Nat.add_sub_cancel_left]
  unfold zeroValues
  rw [List.getElem?_replicate, if_pos (by omega), Option.bind_some, List.getElem?_replicate, if_pos hj]

theorem le_sum_lengths (rots : List (List Int)) (g j : Nat) (r : Int) (h : (rots.getD g [])[j]? = some r) :
    j < (rots.map List.length).sum := by
  obtain ⟨hj, -⟩ := List.getElem?_eq_some_iff.1 h
  by_cases hg : g < rots.length
  · rw [List.getD_eq_getElem _ _ hg] at hj
    exact hj.trans_le (List.le_sum_of_mem (List.mem_map.2 ⟨_, List.getElem_mem hg, rfl⟩))
  · rw [List.getD_eq_default _ _ (by omega)] at hj
    simp at hj

/-- The verifier takes the constants and selectors to be zero. -/
theorem padded_columnsAtY (h : HonestStorage L n d c rots parts usable s y pre t perm sorted vl chunks z) :
    ∃ ev, columnsAtY (padStorage FIXED_BATCH (zeroValues d (rots.map List.length).sum) z) d rots
        (s + (d.constant + d.selector)) = some ev ∧
      ∀ v : PlonkVar, d.HasColumn v → ∀ g, d.globalIndex v = some g → v.rotation ∈ rots.getD g [] →
        ev v.index v.rotation v.type = some (blankedValue L n t y (v.index, v.rotation, v.type)) := by
  have hlen : rots.length = d.witness + d.publicInput + d.constant + d.selector := h.len
  have hcol : ∀ (v : PlonkVar) (g : Nat), d.HasColumn v → d.globalIndex v = some g → ∀ (j : Nat) (r : Int),
      (rots.getD g [])[j]? = some r → g < d.witness + d.publicInput → z.get VARIABLE_BATCH g j =
        some ((columnPoly L t v.index v.type).eval (L.root n ^ r * y)) := by
    intro v g hv hg j r hj
    obtain ⟨_, col, hc, he⟩ := columnPoly_column (L := L) h.fits hv hg
    rw [← he]
    exact (h.column hc hj).1
  unfold columnsAtY
  rw [readColumns_of VARIABLE_BATCH 0 d.witness (fun i => i) .witness
      (fun i r => blankedValue L n t y (i, r, .witness)) (by omega) (by
        intro i hi j r hr
        rw [Nat.zero_add] at hr
        exact get_padStorage _ _ _ _ _ _ _ (hcol ⟨i, 0, true, .witness⟩ i hi rfl j r hr (by omega))),
    readColumns_of VARIABLE_BATCH d.witness d.publicInput (fun i => d.witness + i) .publicInput
      (fun i r => blankedValue L n t y (i, r, .publicInput)) (by omega) (by
        intro i hi j r hr
        exact get_padStorage _ _ _ _ _ _ _ (hcol ⟨i, 0, true, .publicInput⟩ (d.witness + i) hi
          (by simp [TableDesc.globalIndex]; try omega) j r hr (by omega))),
    readColumns_of FIXED_BATCH (d.witness + d.publicInput) d.constant
      (fun i => fixedIndex (s + (d.constant + d.selector)) i) .constant
      (fun i r => blankedValue L n t y (i, r, .constant)) (by omega) (by
        intro i hi j r hr
        exact padded_zero h _ i j (by omega) (le_sum_lengths _ _ _ _ hr)),
    readColumns_of FIXED_BATCH (d.witness + d.constant + d.publicInput) d.selector
      (fun i => fixedIndex (s + (d.constant + d.selector)) (i + d.constant)) .selector
      (fun i r => blankedValue L n t y (i, r, .selector)) (by omega) (by
        intro i hi j r hr
        exact padded_zero h _ (i + d.constant) j (by omega) (le_sum_lengths _ _ _ _ hr))]
  simp only [Option.bind_eq_bind, Option.bind_some]
  refine ⟨_, rfl, ?_⟩
  intro v hv g hg hr
  refine find_functional (blankedValue L n t y) _ ?_ (v.index, v.rotation, v.type) ?_
  · intro e he
    simp only [List.mem_append, List.mem_flatMap, List.mem_map] at he
    rcases he with ((⟨i, _, r, _, rfl⟩ | ⟨i, _, r, _, rfl⟩) | ⟨i, _, r, _, rfl⟩) | ⟨i, _, r, _, rfl⟩ <;> rfl
  · obtain ⟨i, r, rel, ty⟩ := v
    simp only [List.mem_append, List.mem_flatMap, List.mem_map, List.mem_range]
    cases ty <;> simp only [TableDesc.HasColumn, TableDesc.globalIndex, Option.some.injEq] at hv hg
    · subst hg
      exact ⟨_, Or.inl (Or.inl (Or.inl ⟨i, hv, r, by rw [Nat.zero_add]; exact hr, rfl⟩)), rfl⟩
    · refine ⟨_, Or.inl (Or.inl (Or.inr ⟨i, hv, r, ?_, rfl⟩)), rfl⟩
      rw [show d.witness + i = g by omega]; exact hr
    · refine ⟨_, Or.inl (Or.inr ⟨i, hv, r, ?_, rfl⟩), rfl⟩
      rw [show d.witness + d.publicInput + i = g by omega]; exact hr
    · refine ⟨_, Or.inr ⟨i, hv, r, ?_, rfl⟩, rfl⟩
      rw [show d.witness + d.constant + d.publicInput + i = g by omega]; exact hr

end

theorem foldl_zeros (fs : List F) (h : ∀ f ∈ fs, f = 0) : ∀ (as : List F) (acc : F),
    (List.zipWith (fun a f => a * f) as fs).foldl (· + ·) acc = acc := by
  induction fs with
  | nil => intro as acc; simp
  | cons f fs ih =>
    intro as acc
    cases as with
    | nil => rfl
    | cons a as =>
      rw [List.zipWith_cons_cons, List.foldl_cons, h f (by simp), mul_zero, add_zero]
      exact ih (fun x hx => h x (by simp [hx])) as acc

/-- Gates with selectors zero contribute nothing. -/
theorem blanked_gates {S H Com Pr Data Obj : Type} {C : CommScheme F S Com Pr Data Obj}
    {T : PlonkTranscript S F H Com} {fuel : Nat} {d : TableDesc} {c : Circuit F} {order : List PlonkVar} {delta : F}
    {mqc : Nat} {hash : H} {t : PlonkTable F} {obj : Obj} {pd : PublicData F H Com Data} {o0 : Obj}
    (h : PlaceholderSetup L A n fuel d c order t)
    (hp : PreFacts C T L n fuel d c order delta mqc hash t obj pd o0) {y : F}
    {ev : Nat → Int → ColumnType → Option F}
    (hev : ∀ v : PlonkVar, d.HasColumn v → ∀ g, d.globalIndex v = some g →
      v.rotation ∈ pd.common.rotations.getD g [] →
      ev v.index v.rotation v.type = some (blankedValue L n t y (v.index, v.rotation, v.type)))
    (ch : S → F × S) (mask : F) (st : S) : gateVerify ch c.gates ev mask st = some (0, (ch st).2) := by
  obtain ⟨hlen, -, hlt, hmem⟩ := columnsRotations_spec d c _ hp.rotations
  have hs := h.fits.selector
  unfold gateVerify
  dsimp only
  rw [verifyGates_eq ev (ch st).1 (fun v => blankedValue L n t y (v.index, v.rotation, v.type))]
  · rw [evalPoly_all_zero]
    · simp
    · intro x hx
      simp only [gateValues, List.mem_flatMap, List.mem_map] at hx
      obtain ⟨g, -, e, -, rfl⟩ := hx
      simp [blankedValue]
  intro g hg
  refine ⟨?_, fun e he v hv => ?_⟩
  · have hi := (h.gates g hg).1
    have hcol : d.HasColumn ⟨g.selectorIndex, 0, true, .selector⟩ := by simp only [TableDesc.HasColumn]; omega
    obtain ⟨k, hk⟩ := globalIndex_of_hasColumn hcol
    exact hev ⟨g.selectorIndex, 0, true, .selector⟩ hcol k hk
      ((hmem k (columnPoly_column (L := L) h.fits hcol hk).1 0).2 (Or.inl rfl))
  · have hcol := PlaceholderSetup.hasColumn h.fits ((h.gates g hg).2 e he v hv)
    obtain ⟨k, hk⟩ := globalIndex_of_hasColumn hcol
    have hu : VarUsed d c k v.rotation := ⟨v, by
      unfold Circuit.usedVars
      exact List.mem_append_left _ (List.mem_flatMap.2 ⟨g, hg, List.mem_flatMap.2 ⟨e, he, hv⟩⟩), hk, rfl⟩
    exact hev v hcol k hk ((hmem k (hlt k _ (Or.inl hu)) _).2 (Or.inr (Or.inl hu)))

end Crypto3Zk
