import Verif.Props.Placeholder
import Verif.Lemmas.PlaceholderPublic

/-!
# The placeholder proof system: public inputs (C38)
-/

set_option linter.unusedSectionVars false

namespace Crypto3Zk

open Polynomial

variable {F : Type} [Field F] [DecidableEq F] {S H Com Pr Data Obj : Type}
variable {C : CommScheme F S Com Pr Data Obj} {T : PlonkTranscript S F H Com} {L : FftLib F}
variable {A n fuel : Nat} {d : TableDesc} {c : Circuit F} {order : List PlonkVar} {delta : F}
variable {mqc : Nat} {hash : H} {t : PlonkTable F} {obj o0 : Obj} {pd : PublicData F H Com Data}
variable {proof : PlaceholderProof F Com Pr} {common : CommonData F H Com Data}

theorem length_publicColumn (sizes : List Nat) (i : Nat) (xs : List F) (h : publicSize sizes i xs ≤ 2 ^ n) :
    (publicColumn sizes n i xs).length = 2 ^ n := by
  have := publicSize_le sizes i xs
  simp [publicColumn]
  omega

theorem getD_publicColumn (sizes : List Nat) (i : Nat) (xs : List F) (j : Nat) :
    (publicColumn sizes n i xs).getD j 0 = if j < publicSize sizes i xs then xs.getD j 0 else 0 := by
  have h := publicSize_le sizes i xs
  unfold publicColumn
  have hl : (xs.take (publicSize sizes i xs)).length = publicSize sizes i xs := by simp; omega
  by_cases hj : j < publicSize sizes i xs
  · rw [if_pos hj, List.getD_append _ _ _ _ (by omega), List.getD_eq_getElem _ _ (by omega),
      List.getD_eq_getElem _ _ (by omega), List.getElem_take]
  · rw [if_neg hj, List.getD_append_right _ _ _ _ (by omega)]
    by_cases h1 : j - (xs.take (publicSize sizes i xs)).length < 2 ^ n - publicSize sizes i xs
    · rw [List.getD_eq_getElem _ _ (by simpa using h1), List.getElem_replicate]
    · rw [List.getD_eq_default _ _ (by simpa using h1)]

/-- C38: exactly when a proof is accepted with given public inputs: the circuit declares the size of every public
input column or of none; the proof is accepted without them; and for every given column, the challenge
is not one of its rows, and the first value claimed for the column in the proof is the value at the
challenge of the column that is meant. -/
theorem C38_verdict (hL : L.Lawful A) (hn : n ≤ A) (hrows : d.rows = 2 ^ n) (asserts : Bool)
    (publicInput : List (List F)) (hfit : ∀ i xs, publicInput[i]? = some xs → publicSize c.publicInputSizes i xs ≤ 2 ^ n) :
    placeholderVerifyPublic C T L n asserts d c common proof obj publicInput = some true ↔
      (c.publicInputSizes = [] ∨ c.publicInputSizes.length = d.publicInput) ∧
      placeholderVerify C T L n asserts d c common proof obj = some true ∧
      ∀ i xs, publicInput[i]? = some xs → (c.publicInputSizes ≠ [] → i < c.publicInputSizes.length) ∧
        (∀ k < publicSize c.publicInputSizes i xs, proof.challenge ≠ L.root n ^ k) ∧
        proof.eval.1.get VARIABLE_BATCH (d.witness + i) 0 =
          some ((dfsPoly L (publicColumn c.publicInputSizes n i xs)).eval proof.challenge) := by
  have he : (L.domain n).elem 1 = L.root n := pow_one _
  unfold placeholderVerifyPublic
  simp only [he, hrows]
  by_cases hs : c.publicInputSizes.length ≠ 0 ∧ c.publicInputSizes.length ≠ d.publicInput
  · rw [if_pos hs]
    simp only [Option.some.injEq, Bool.false_eq_true, false_iff]
    rintro ⟨h | h, -⟩
    · exact hs.1 (by simp [h])
    · exact hs.2 h
  · rw [if_neg hs]
    have hs' : c.publicInputSizes = [] ∨ c.publicInputSizes.length = d.publicInput := by
      by_cases h : c.publicInputSizes = []
      · exact Or.inl h
      · right
        by_contra h'
        exact hs ⟨fun h0 => h (List.length_eq_zero_iff.1 h0), h'⟩
    have hcheck := checkPublicInputs_iff proof.eval.1 d c.publicInputSizes (L.root n)
      ((proof.challenge ^ 2 ^ n - 1) * (((2 ^ n : Nat) : F))⁻¹) proof.challenge publicInput 0
    simp only [zero_add] at hcheck
    have hcheck' : checkPublicInputs proof.eval.1 d c.publicInputSizes (L.root n)
        ((proof.challenge ^ 2 ^ n - 1) * (((2 ^ n : Nat) : F))⁻¹) proof.challenge publicInput 0 = some true ↔
        ∀ i xs, publicInput[i]? = some xs → (c.publicInputSizes ≠ [] → i < c.publicInputSizes.length) ∧
          (∀ k < publicSize c.publicInputSizes i xs, proof.challenge ≠ L.root n ^ k) ∧
          proof.eval.1.get VARIABLE_BATCH (d.witness + i) 0 =
            some ((dfsPoly L (publicColumn c.publicInputSizes n i xs)).eval proof.challenge) := by
      rw [hcheck]
      refine forall_congr' fun i => forall_congr' fun xs => forall_congr' fun hi => and_congr_right fun _ => ?_
      have hle := publicSize_le c.publicInputSizes i xs
      have hlen : (xs.take (publicSize c.publicInputSizes i xs)).length = publicSize c.publicInputSizes i xs := by
        simp; omega
      have hval := publicInput_value hL hn proof.challenge (xs.take (publicSize c.publicInputSizes i xs))
        (by rw [hlen]; exact hfit i xs hi)
      have hsome := publicInputSum_some (L.root n) proof.challenge (xs.take (publicSize c.publicInputSizes i xs))
      rw [hlen] at hval hsome
      constructor
      · rintro ⟨v, hv, hg⟩
        exact ⟨hsome.1 ⟨v, hv⟩, by rw [hg, hval v hv]; rfl⟩
      · rintro ⟨h1, h2⟩
        obtain ⟨v, hv⟩ := hsome.2 h1
        exact ⟨v, hv, by rw [h2, hval v hv]; rfl⟩
    rw [← hcheck']
    cases hb : checkPublicInputs proof.eval.1 d c.publicInputSizes (L.root n)
        ((proof.challenge ^ 2 ^ n - 1) * (((2 ^ n : Nat) : F))⁻¹) proof.challenge publicInput 0 with
    | none => simp
    | some b => cases b <;> simp [hs']

/-- The first value claimed for public input column `i`, if the columns of `t` were opened: the value at the
challenge rotated by the least rotation of the column. -/
theorem first_claim (h : placeholderPreprocess C T L n fuel d c order delta mqc hash t obj = some (pd, o0))
    {t' : PlonkTable F} (hw : t'.witnesses.length = d.witness) (hp : t'.publicInputs.length = d.publicInput)
    {i : Nat} {col : List F} (hcol : t'.publicInputs[i]? = some col) {r : Int} (hr : LeastRotation d c i r)
    (hopen : VariableOpened L n d c pd.common t' proof) :
    proof.eval.1.get VARIABLE_BATCH (d.witness + i) 0 =
      some ((dfsPoly L col).eval (proof.challenge * L.root n ^ r)) := by
  have hi : i < d.publicInput := by rw [← hp]; exact (List.getElem?_eq_some_iff.1 hcol).1
  have he : (L.domain n).elem 1 = L.root n := pow_one _
  have hpf := preprocess_facts h
  obtain ⟨hlen, hs, -, hm⟩ := columnsRotations_spec d c _ hpf.rotations
  have hwd : d.witness + i < d.width := by simp only [TableDesc.width]; omega
  have hv := verifierPoints_eq L n d c pd.common proof.challenge hlen
  have hf := hopen _ hv
  have hreq := (pointOps_requested L n d c pd.common.rotations pd.common.permutationParts
    pd.common.desc.usableRows (pd.common.permutedColumns.length * 2 + 2) proof.challenge (d.witness + i)).1
  rw [if_pos (by omega), he] at hreq
  have hmem := hm (d.witness + i) hwd
  obtain ⟨rs, hrs⟩ : ∃ rs, pd.common.rotations[d.witness + i]? = some rs :=
    ⟨_, List.getElem?_eq_getElem (by omega)⟩
  have hrs' : pd.common.rotations.getD (d.witness + i) [] = rs := by simp [List.getD, hrs]
  rw [hrs'] at hmem hreq
  have hsort := hs rs (List.mem_of_getElem? hrs)
  have hhead : rs[0]? = some r := by
    have hr0 : r ∈ rs := (hmem r).2 (hr.1.imp id Or.inl)
    cases rs with
    | nil => simp at hr0
    | cons a rs =>
      have h1 : a ≤ r := by
        rcases List.mem_cons.1 hr0 with h1 | h1
        · exact h1.ge
        · exact ((List.pairwise_cons.1 hsort).1 r h1).le
      have h2 : r ≤ a := by
        rcases (hmem a).1 List.mem_cons_self with h2 | h2 | h2
        · rw [h2]; exact hr.2.1
        · exact hr.2.2 a h2
        · rw [h2.2.1]; exact hr.2.1.trans (by norm_num)
      simp [le_antisymm h1 h2]
  have hget : (t'.witnesses ++ t'.publicInputs)[d.witness + i]? = some col := by
    rw [List.getElem?_append_right (by omega), hw, Nat.add_sub_cancel_left, hcol]
  simp only [EvalStorage.get, EvalStorage.getPoly, hf, Option.bind_eq_bind, Option.bind_some,
    List.getElem?_mapIdx, hget, Option.map_some, hreq, List.map_map, List.getElem?_map, hhead,
    Function.comp_apply]

/-- C38: what acceptance says about a committed public input column: except for fewer challenges than there
are rows, the column moved by its least rotation holds the given values in the first rows and zero in
the others. -/
theorem C38_binding (hL : L.Lawful A) (hn : n ≤ A) (hrows : d.rows = 2 ^ n)
    (h : placeholderPreprocess C T L n fuel d c order delta mqc hash t obj = some (pd, o0))
    (i : Nat) (col xs : List F) (hlen : col.length = 2 ^ n) (r : Int) (hr : LeastRotation d c i r) :
    ∃ bad : Finset F, bad.card < 2 ^ n ∧
      ∀ (t' : PlonkTable F) (proof : PlaceholderProof F Com Pr) (o : Obj) (asserts : Bool)
        (publicInput : List (List F)), t'.witnesses.length = d.witness → t'.publicInputs.length = d.publicInput →
        t'.publicInputs[i]? = some col → publicInput[i]? = some xs →
        (∀ i xs, publicInput[i]? = some xs → publicSize c.publicInputSizes i xs ≤ 2 ^ n) →
        VariableOpened L n d c pd.common t' proof →
        placeholderVerifyPublic C T L n asserts d c pd.common proof o publicInput = some true →
        proof.challenge ∉ bad → rotateColumn n r col = publicColumn c.publicInputSizes n i xs := by
  by_cases hsz : publicSize c.publicInputSizes i xs ≤ 2 ^ n
  · obtain ⟨bad, h1, h2⟩ := columns_bad hL hn (rotateColumn n r col) (publicColumn c.publicInputSizes n i xs)
      (length_rotateColumn r col) (length_publicColumn _ _ _ hsz)
    refine ⟨bad, h1, ?_⟩
    intro t' proof o asserts publicInput hw hp hcol hxs hfit hopen hacc hy
    obtain ⟨-, -, h3⟩ := (C38_verdict hL hn hrows asserts publicInput hfit).1 hacc
    obtain ⟨-, -, h4⟩ := h3 i xs hxs
    rw [first_claim h hw hp hcol hr hopen, Option.some_inj] at h4
    exact h2 _ hy (by rw [dfsPoly_rotate hL hn r col hlen, h4])
  · refine ⟨∅, by simp, ?_⟩
    intro t' proof o asserts publicInput hw hp hcol hxs hfit
    exact absurd (hfit i xs hxs) hsz

/-- C38 for circuits that refer to the public input column with no negative rotation: except for fewer
challenges than there are rows, a proof that opens the committed columns is accepted only if the
public input column holds the given values in its first rows, as many as are given and declared, and
zero in the others. What is missing: with a negative rotation this is false (`C38_rotated`), and
the truth of the openings is assumed (the commitment scheme is treated in C44). -/
theorem C38_binding_partial (hL : L.Lawful A) (hn : n ≤ A) (hrows : d.rows = 2 ^ n)
    (h : placeholderPreprocess C T L n fuel d c order delta mqc hash t obj = some (pd, o0))
    (i : Nat) (col xs : List F) (hlen : col.length = 2 ^ n)
    (hr : ∀ r, VarUsed d c (d.witness + i) r → 0 ≤ r) :
    ∃ bad : Finset F, bad.card < 2 ^ n ∧
      ∀ (t' : PlonkTable F) (proof : PlaceholderProof F Com Pr) (o : Obj) (asserts : Bool)
        (publicInput : List (List F)), t'.witnesses.length = d.witness → t'.publicInputs.length = d.publicInput →
        t'.publicInputs[i]? = some col → publicInput[i]? = some xs →
        (∀ i xs, publicInput[i]? = some xs → publicSize c.publicInputSizes i xs ≤ 2 ^ n) →
        VariableOpened L n d c pd.common t' proof →
        placeholderVerifyPublic C T L n asserts d c pd.common proof o publicInput = some true →
        proof.challenge ∉ bad →
        ∀ j < 2 ^ n, col.getD j 0 = if j < publicSize c.publicInputSizes i xs then xs.getD j 0 else 0 := by
  obtain ⟨bad, h1, h2⟩ := C38_binding hL hn hrows h i col xs hlen 0 ⟨Or.inl rfl, le_rfl, hr⟩
  refine ⟨bad, h1, ?_⟩
  intro t' proof o asserts publicInput hw hp hcol hxs hfit hopen hacc hy j _
  have := h2 t' proof o asserts publicInput hw hp hcol hxs hfit hopen hacc hy
  rw [rotateColumn_zero col hlen] at this
  rw [this, getD_publicColumn]

/-- An honest proof opens the columns of the table. -/
theorem honest_opened {Has : FriPoly F → List F → Prop} {maxLen : Nat} {okPoints : List F → Prop}
    {okSetup : S → Prop} (hC : C.Complete Has maxLen okPoints okSetup) (hR : C.RootLaws)
    (hH : HasLaws L n Has) (hmax : 2 ^ n ≤ maxLen) (hS : PlaceholderSetup L A n fuel d c order t)
    (hpre : placeholderPreprocess C T L n fuel d c order delta mqc hash t C.new = some (pd, o0))
    (hprove : placeholderProve C T L n d c order pd t o0 = some proof)
    (hset : okSetup (T.key pd.common.hash pd.common.fixedCommitment))
    (hok : ∀ pts, verifierPoints L n d c pd.common proof.challenge = some pts →
      ∀ k i, okPoints (lpcRequested k i pts))
    (hsort : ∀ vcom theta, proof.commitments.find VARIABLE_BATCH = some vcom →
      theta = lookupTheta T c pd.perm.parts vcom
        (C.setup o0 (T.key pd.common.hash pd.common.fixedCommitment) pd.common.schemeData).1 →
      c.lookups.gates ≠ [] → Sortable (compressedInputs t c.lookups n theta)
        (compressedValues t c.lookups n d.usableRows theta) (2 ^ n) d.usableRows) :
    VariableOpened L n d c pd.common t proof := by
  have hp := preprocess_facts hpre
  obtain ⟨D, h⟩ := prove_run hR hprove
  obtain ⟨-, -, -, -, -, -, -, -, -, -, s11, -⟩ := permPreprocess_shape hS.lib hS.small hp.perm
  have hu : pd.perm.usableRows ≤ 2 ^ n := by have := hS.rows; have := hS.usable; omega
  obtain ⟨c1, -⟩ := h.find_commitments
  have hsort' := hsort D.vcom _ c1 (h.theta hS.lib hS.small hu)
  obtain ⟨hz, -⟩ := h.storage hC hH hmax hS hp hset
    (fun k i _ => hok D.pts (h.pts_eq hS hp).2.1 k i) hsort'
  obtain ⟨e1, e2, -⟩ := h.pts_eq hS hp
  intro pts hpts
  rw [e2, Option.some_inj] at hpts
  have hf := hz.find VARIABLE_BATCH (Or.inr (Or.inl rfl))
  rw [← e1, hpts] at hf
  rw [hf, Option.some_inj]
  simp only [VARIABLE_BATCH, honestPolys]
  rw [← List.map_append]
  apply List.ext_getElem (by simp)
  intro i h1 h2
  simp only [List.getElem_mapIdx, List.getElem_map]
  refine List.map_congr_left fun x _ => ?_
  rw [dfsPoly, eval_toPoly]

/-- C38, completeness: an honest proof is accepted with the public inputs of the table, if the challenge is
not a row, as long as no public input column is used with a negative rotation; in general the columns
have to be given as moved by their least rotation. -/
theorem C38_honest_accepted {Has : FriPoly F → List F → Prop} {maxLen : Nat} {okPoints : List F → Prop}
    {okSetup : S → Prop} (hC : C.Complete Has maxLen okPoints okSetup) (hR : C.RootLaws)
    (hH : HasLaws L n Has) (hmax : 2 ^ n ≤ maxLen) (hS : PlaceholderSetup L A n fuel d c order t)
    (hpre : placeholderPreprocess C T L n fuel d c order delta mqc hash t C.new = some (pd, o0))
    (hprove : placeholderProve C T L n d c order pd t o0 = some proof)
    (hset : okSetup (T.key pd.common.hash pd.common.fixedCommitment))
    (hok : ∀ pts, verifierPoints L n d c pd.common proof.challenge = some pts →
      ∀ k i, okPoints (lpcRequested k i pts))
    (hsort : ∀ vcom theta, proof.commitments.find VARIABLE_BATCH = some vcom →
      theta = lookupTheta T c pd.perm.parts vcom
        (C.setup o0 (T.key pd.common.hash pd.common.fixedCommitment) pd.common.schemeData).1 →
      c.lookups.gates ≠ [] → Sortable (compressedInputs t c.lookups n theta)
        (compressedValues t c.lookups n d.usableRows theta) (2 ^ n) d.usableRows)
    (hcopies : CopiesHold d c.copies t.cellAt) (hgates : GatesHold t c.gates d.usableRows)
    (hsizes : c.publicInputSizes = [] ∨ c.publicInputSizes.length = d.publicInput)
    (publicInput : List (List F)) (hfit : PublicInputFits c.publicInputSizes n publicInput)
    (hgiven : ∀ i xs, publicInput[i]? = some xs → ∃ col r, t.publicInputs[i]? = some col ∧
      LeastRotation d c i r ∧ publicColumn c.publicInputSizes n i xs = rotateColumn n r col)
    (hy : ∀ k < 2 ^ n, proof.challenge ≠ L.root n ^ k) (asserts : Bool) :
    placeholderVerifyPublic C T L n asserts d c pd.common proof o0 publicInput = some true := by
  rw [C38_verdict hS.lib hS.small hS.rows asserts publicInput fun i xs hi => (hfit i xs hi).2]
  refine ⟨hsizes, C37_honest_accepted hC hR hH hmax hS hpre hprove hset hok hsort hcopies hgates asserts, ?_⟩
  intro i xs hi
  obtain ⟨col, r, hcol, hr, hrot⟩ := hgiven i xs hi
  have hlen : col.length = 2 ^ n := hS.fits.rect.2.1 col (List.mem_of_getElem? hcol)
  refine ⟨(hfit i xs hi).1, fun k hk => hy k (hk.trans_le (hfit i xs hi).2), ?_⟩
  rw [first_claim hpre hS.fits.witness hS.fits.publicInput hcol hr
    (honest_opened hC hR hH hmax hS hpre hprove hset hok hsort), hrot,
    dfsPoly_rotate hS.lib hS.small r col hlen]

/-- C38 fails with negative rotations: if a public input column is used with one, and moving it by the least one
changes it, then the verifier refuses the public inputs that the proof was made for, except at fewer
challenges than there are rows. -/
theorem C38_rotated (hL : L.Lawful A) (hn : n ≤ A) (hrows : d.rows = 2 ^ n)
    (h : placeholderPreprocess C T L n fuel d c order delta mqc hash t obj = some (pd, o0))
    (i : Nat) (col xs : List F) (hlen : col.length = 2 ^ n) (r : Int) (hr : LeastRotation d c i r)
    (hcol : col = publicColumn c.publicInputSizes n i xs) (hne : rotateColumn n r col ≠ col) :
    ∃ bad : Finset F, bad.card < 2 ^ n ∧
      ∀ (t' : PlonkTable F) (proof : PlaceholderProof F Com Pr) (o : Obj) (asserts : Bool)
        (publicInput : List (List F)), t'.witnesses.length = d.witness → t'.publicInputs.length = d.publicInput →
        t'.publicInputs[i]? = some col → publicInput[i]? = some xs →
        (∀ i xs, publicInput[i]? = some xs → publicSize c.publicInputSizes i xs ≤ 2 ^ n) →
        VariableOpened L n d c pd.common t' proof → proof.challenge ∉ bad →
        placeholderVerifyPublic C T L n asserts d c pd.common proof o publicInput ≠ some true := by
  obtain ⟨bad, h1, h2⟩ := C38_binding hL hn hrows h i col xs hlen r hr
  refine ⟨bad, h1, ?_⟩
  intro t' proof o asserts publicInput hw hp hcol' hxs hfit hopen hy hacc
  exact hne (by rw [h2 t' proof o asserts publicInput hw hp hcol' hxs hfit hopen hacc hy, ← hcol])

/-- Columns that are not given are not checked: with no public input at all the verdict is the one without
public inputs (if the sizes are consistent). -/
theorem C38_unchecked (asserts : Bool)
    (hsizes : c.publicInputSizes = [] ∨ c.publicInputSizes.length = d.publicInput) :
    placeholderVerifyPublic C T L n asserts d c common proof obj [] =
      placeholderVerify C T L n asserts d c common proof obj := by
  unfold placeholderVerifyPublic
  rw [if_neg]
  · rfl
  · rintro ⟨h1, h2⟩
    rcases hsizes with h | h
    · exact h1 (by simp [h])
    · exact h2 h

end Crypto3Zk
