import Verif.Props.PlaceholderPublic
import Verif.Props.PlaceholderSound
import Verif.Props.PlaceholderKzgSound
import Verif.Spec.PlaceholderPublicSound

/-!
# C103: a proof and its public inputs

The public inputs are not part of the transcript: the verifier compares, for each column, one value of a
polynomial at the challenge, which is known to whoever chooses the public inputs.
-/

set_option linter.unusedSectionVars false

namespace Crypto3Zk

open Polynomial

section
variable {F : Type} [Field F] [DecidableEq F] {S H Com Pr Data Obj : Type}
variable {C : CommScheme F S Com Pr Data Obj} {T : PlonkTranscript S F H Com} {L : FftLib F}
variable {A n : Nat} {d : TableDesc} {c : Circuit F} {obj : Obj}
variable {proof : PlaceholderProof F Com Pr} {common : CommonData F H Com Data}

/-- The value of the column for public inputs with a free entry `k`. -/
theorem publicColumn_value (hL : L.Lawful A) (hn : n ≤ A) (sizes : List Nat) (i : Nat) (vs : List F) (k : Nat)
    (hk : k < publicSize sizes i vs) (hfit : publicSize sizes i vs ≤ 2 ^ n) (y : F) :
    ∃ a, ∀ x, (dfsPoly L (publicColumn sizes n i (vs.set k x))).eval y =
      x * (unitPoly (2 ^ n) (L.root n ^ k)).eval y + a := by
  have hsz : ∀ x, publicSize sizes i (vs.set k x) = publicSize sizes i vs := fun x => by
    simp [publicSize]
  have hle := publicSize_le sizes i vs
  refine ⟨∑ j ∈ (Finset.range (2 ^ n)).erase k,
    (if j < publicSize sizes i vs then vs.getD j 0 else 0) * (unitPoly (2 ^ n) (L.root n ^ j)).eval y, fun x => ?_⟩
  rw [dfsPoly_units hL hn _ (length_publicColumn _ _ _ (by rw [hsz]; exact hfit)), eval_finset_sum,
    ← Finset.add_sum_erase _ _ (Finset.mem_range.2 (lt_of_lt_of_le hk hfit))]
  congr 1
  · rw [eval_mul, eval_C, getD_publicColumn, hsz, if_pos hk]
    simp [List.getD, List.getElem?_set, show k < vs.length by omega]
  · refine Finset.sum_congr rfl fun j hj => ?_
    have hne : k ≠ j := (Finset.ne_of_mem_erase hj).symm
    rw [eval_mul, eval_C, getD_publicColumn, hsz]
    simp [List.getD, List.getElem?_set, hne]

/-- **C103** is false: a proof that is accepted with some public inputs is accepted with others. In one column, all
values but one can be chosen at will, and there is a value for the remaining entry `k` with which the same proof is
accepted. -/
theorem C103_other_inputs (hL : L.Lawful A) (hn : n ≤ A) (hrows : d.rows = 2 ^ n) {asserts : Bool}
    {publicInput : List (List F)}
    (hfit : ∀ i xs, publicInput[i]? = some xs → publicSize c.publicInputSizes i xs ≤ 2 ^ n)
    (hacc : placeholderVerifyPublic C T L n asserts d c common proof obj publicInput = some true)
    {i : Nat} {xs : List F} (hxs : publicInput[i]? = some xs) {k : Nat}
    (hk : k < publicSize c.publicInputSizes i xs) (vs : List F) (hvs : vs.length = xs.length) :
    ∃ x, placeholderVerifyPublic C T L n asserts d c common proof obj (publicInput.set i (vs.set k x)) = some true := by
  obtain ⟨h1, h2, h3⟩ := (C38_verdict hL hn hrows asserts publicInput hfit).1 hacc
  have hsz : publicSize c.publicInputSizes i vs = publicSize c.publicInputSizes i xs := by simp [publicSize, hvs]
  have hsz' : ∀ x, publicSize c.publicInputSizes i (vs.set k x) = publicSize c.publicInputSizes i xs := fun x => by
    simp [publicSize, hvs]
  obtain ⟨g1, g2, g3⟩ := h3 i xs hxs
  have hi : i < publicInput.length := (List.getElem?_eq_some_iff.1 hxs).1
  -- it suffices to find an entry with the right value
  suffices hex : ∃ x, (dfsPoly L (publicColumn c.publicInputSizes n i (vs.set k x))).eval proof.challenge =
      (dfsPoly L (publicColumn c.publicInputSizes n i xs)).eval proof.challenge by
    obtain ⟨x, hx⟩ := hex
    refine ⟨x, (C38_verdict hL hn hrows asserts _ ?_).2 ⟨h1, h2, ?_⟩⟩
    · intro j ys hj
      by_cases hij : i = j
      · subst hij
        rw [List.getElem?_set_self hi, Option.some_inj] at hj
        rw [← hj, hsz']
        exact hfit i xs hxs
      · rw [List.getElem?_set_ne hij] at hj
        exact hfit j ys hj
    · intro j ys hj
      by_cases hij : i = j
      · subst hij
        rw [List.getElem?_set_self hi, Option.some_inj] at hj
        subst hj
        exact ⟨g1, by rw [hsz']; exact g2, by rw [hx, g3]⟩
      · rw [List.getElem?_set_ne hij] at hj
        exact h3 j ys hj
  have hfi := hfit i xs hxs
  obtain ⟨a, ha⟩ := publicColumn_value hL hn c.publicInputSizes i vs k (by rw [hsz]; exact hk)
    (by rw [hsz]; exact hfi) proof.challenge
  have hroot : ∀ j, (L.root n ^ j) ^ 2 ^ n = 1 := fun j => by
    rw [← pow_mul, mul_comm, pow_mul, root_pow_card hL n hn, one_pow]
  by_cases hy : proof.challenge ^ 2 ^ n = 1
  · -- the challenge is one of the other rows, where both columns are zero
    have hrow : ∃ j < 2 ^ n, proof.challenge = L.root n ^ j := by
      by_contra hcon
      push Not at hcon
      have hv := unitPoly_mul (2 ^ n) (L.root n ^ 0) proof.challenge (hroot 0)
      have hinj : Set.InjOn (fun j => L.root n ^ j) (Finset.range (2 ^ n) : Set Nat) := by
        intro i hi j hj he
        exact elem_injective hL n hn i j (by simpa using hi) (by simpa using hj) he
      have hcard : ((Finset.range (2 ^ n)).image fun j => L.root n ^ j).card = 2 ^ n := by
        rw [Finset.card_image_of_injOn hinj, Finset.card_range]
      have hsub : insert proof.challenge ((Finset.range (2 ^ n)).image fun j => L.root n ^ j) ⊆
          (nthRoots (2 ^ n) (1 : F)).toFinset := by
        intro x hx
        rw [Multiset.mem_toFinset, mem_nthRoots (by positivity)]
        rcases Finset.mem_insert.1 hx with rfl | hx
        · exact hy
        · obtain ⟨j, -, rfl⟩ := Finset.mem_image.1 hx
          exact hroot j
      have hnot : proof.challenge ∉ (Finset.range (2 ^ n)).image fun j => L.root n ^ j := by
        intro hm
        obtain ⟨j, hj, he⟩ := Finset.mem_image.1 hm
        exact hcon j (Finset.mem_range.1 hj) he.symm
      have h4 := Finset.card_le_card hsub
      rw [Finset.card_insert_of_notMem hnot, hcard] at h4
      have h5 := (Multiset.toFinset_card_le _).trans (card_nthRoots (2 ^ n) (1 : F))
      omega
    obtain ⟨j, hj, he⟩ := hrow
    refine ⟨0, ?_⟩
    have hjs : ¬ j < publicSize c.publicInputSizes i xs := fun h => g2 j h he
    rw [he, dfsPoly_eval_row hL n hn _ (length_publicColumn _ _ _ (by rw [hsz']; exact hfi)) j hj,
      dfsPoly_eval_row hL n hn _ (length_publicColumn _ _ _ hfi) j hj, getD_publicColumn, getD_publicColumn,
      hsz', if_neg hjs, if_neg hjs]
  · have hu : (unitPoly (2 ^ n) (L.root n ^ k)).eval proof.challenge ≠ 0 := by
      intro h0
      have hv := unitPoly_mul (2 ^ n) (L.root n ^ k) proof.challenge (hroot k)
      rw [h0, zero_mul] at hv
      have h6 : L.root n ^ k ≠ 0 := pow_ne_zero _ (root_ne_zero hL n hn)
      have h7 : ((2 ^ n : Nat) : F)⁻¹ ≠ 0 := inv_ne_zero (rows_ne_zero hL)
      rcases mul_eq_zero.1 hv.symm with h | h
      · exact (mul_ne_zero h6 h7) h
      · exact hy (sub_eq_zero.1 h)
    refine ⟨((dfsPoly L (publicColumn c.publicInputSizes n i xs)).eval proof.challenge - a) *
      ((unitPoly (2 ^ n) (L.root n ^ k)).eval proof.challenge)⁻¹, ?_⟩
    rw [ha, mul_assoc, inv_mul_cancel₀ hu, mul_one, sub_add_cancel]

/-- **C103** is false, for columns of two values or more: the value in any row `j` can be replaced by any other
value `v`, if another value of the column is adapted. The public inputs are then different ones. -/
theorem C103_any_value (hL : L.Lawful A) (hn : n ≤ A) (hrows : d.rows = 2 ^ n) {asserts : Bool}
    {publicInput : List (List F)}
    (hfit : ∀ i xs, publicInput[i]? = some xs → publicSize c.publicInputSizes i xs ≤ 2 ^ n)
    (hacc : placeholderVerifyPublic C T L n asserts d c common proof obj publicInput = some true)
    {i : Nat} {xs : List F} (hxs : publicInput[i]? = some xs) {j k : Nat} (hjk : j ≠ k)
    (hj : j < publicSize c.publicInputSizes i xs) (hk : k < publicSize c.publicInputSizes i xs) (v : F) :
    ∃ xs' : List F, xs'.length = xs.length ∧ xs'[j]? = some v ∧
      (∀ l, l ≠ j → l ≠ k → xs'[l]? = xs[l]?) ∧
      placeholderVerifyPublic C T L n asserts d c common proof obj (publicInput.set i xs') = some true := by
  have hle := publicSize_le c.publicInputSizes i xs
  obtain ⟨x, hx⟩ := C103_other_inputs hL hn hrows hfit hacc hxs hk (xs.set j v) (by simp)
  refine ⟨(xs.set j v).set k x, by simp, ?_, ?_, hx⟩
  · rw [List.getElem?_set_ne hjk.symm, List.getElem?_set_self (by omega)]
  · intro l h1 h2
    rw [List.getElem?_set_ne h2.symm, List.getElem?_set_ne h1.symm]

end

section
variable {F : Type} [Field F] [DecidableEq F]
variable {L : FftLib F} {A n fuel : Nat} {d : TableDesc} {c : Circuit F} {order : List PlonkVar}
  {t : PlonkTable F} {delta : F} {mqc : Nat} {pre : PermData F}

/-- Polynomials that are opened truly include the columns of the table. -/
theorem OpenedTruly.variable {H Com Data Pr : Type} {common : CommonData F H Com Data} {m : ProverMessages F}
    {proof : PlaceholderProof F Com Pr} (h : OpenedTruly L n d c common pre t m proof) :
    VariableOpened L n d c common t proof := by
  intro pts hpts
  rw [h pts hpts VARIABLE_BATCH (Or.inr (Or.inl rfl)), Option.some_inj]
  simp only [committedPolys, VARIABLE_BATCH, FIXED_BATCH]
  rw [if_neg (by decide), if_pos trivial, ← List.map_append]
  apply List.ext_getElem (by simp)
  intro i h1 h2
  simp only [List.getElem_mapIdx, List.getElem_map]
  refine List.map_congr_left fun x _ => ?_
  rw [dfsPoly, eval_toPoly]

/-- For public inputs that are chosen before the challenge `y`, there are few bad values of `y`: with the others, if
the columns of the table are opened and the verdict is positive then the public inputs are in the table. -/
theorem public_inputs_bound (hS : PlaceholderSetup L A n fuel d c order t)
    (hrot : ∀ i r, VarUsed d c (d.witness + i) r → 0 ≤ r) (publicInput : List (List F))
    (hfit : ∀ i xs, publicInput[i]? = some xs → publicSize c.publicInputSizes i xs ≤ 2 ^ n) :
    ∃ badY : Finset F, badY.card ≤ publicInput.length * (2 ^ n - 1) ∧
      ∀ {S H Com Pr Data Obj : Type} (C : CommScheme F S Com Pr Data Obj) (T : PlonkTranscript S F H Com)
        (hash : H) (obj o0 : Obj) (pd : PublicData F H Com Data) (t0 : PlonkTable F),
        placeholderPreprocess C T L n fuel d c order delta mqc hash t0 obj = some (pd, o0) →
        ∀ (proof : PlaceholderProof F Com Pr), VariableOpened L n d c pd.common t proof →
          proof.challenge ∉ badY → ∀ asserts,
          placeholderVerifyPublic C T L n asserts d c pd.common proof o0 publicInput = some true →
          PublicInputsIn c n t publicInput := by
  classical
  have hL := hS.lib
  have hn := hS.small
  have hbad : ∀ i, ∃ bad : Finset F, bad.card ≤ 2 ^ n - 1 ∧ ∀ xs col, publicInput[i]? = some xs →
      t.publicInputs[i]? = some col → ∀ y ∉ bad, (dfsPoly L col).eval y =
        (dfsPoly L (publicColumn c.publicInputSizes n i xs)).eval y → col = publicColumn c.publicInputSizes n i xs := by
    intro i
    by_cases h : ∃ xs col, publicInput[i]? = some xs ∧ t.publicInputs[i]? = some col
    · obtain ⟨xs, col, h1, h2⟩ := h
      obtain ⟨bad, hb, h3⟩ := columns_bad hL hn col (publicColumn c.publicInputSizes n i xs)
        (hS.fits.rect.2.1 col (List.mem_of_getElem? h2)) (length_publicColumn _ _ _ (hfit i xs h1))
      refine ⟨bad, by omega, fun xs' col' h1' h2' => ?_⟩
      rw [h1, Option.some_inj] at h1'
      rw [h2, Option.some_inj] at h2'
      subst h1' h2'
      exact h3
    · exact ⟨∅, by simp, fun xs col h1 h2 => absurd ⟨xs, col, h1, h2⟩ h⟩
  choose bad hb hbad using hbad
  refine ⟨(Finset.range publicInput.length).biUnion bad, ?_, ?_⟩
  · refine (Finset.card_biUnion_le_card_mul _ _ (2 ^ n - 1) fun i _ => hb i).trans (by simp)
  intro S H Com Pr Data Obj C T hash obj o0 pd t0 hpre proof hopen hy asserts hacc i xs hxs
  obtain ⟨-, h2, h3⟩ := (C38_verdict hL hn hS.rows asserts publicInput hfit).1 hacc
  obtain ⟨-, -, h4⟩ := h3 i xs hxs
  have hi : i < publicInput.length := (List.getElem?_eq_some_iff.1 hxs).1
  have hyi : proof.challenge ∉ bad i := fun h => hy (Finset.mem_biUnion.2 ⟨i, Finset.mem_range.2 hi, h⟩)
  have hp := preprocess_facts hpre
  have hpts := verifierPoints_eq L n d c pd.common proof.challenge (columnsRotations_spec d c _ hp.rotations).1
  have hv := hopen _ hpts
  have hlt : i < t.publicInputs.length := by
    by_contra hge
    simp only [EvalStorage.get, EvalStorage.getPoly, hv, Option.bind_eq_bind, Option.bind_some,
      List.getElem?_mapIdx] at h4
    rw [List.getElem?_eq_none (by rw [List.length_append, hS.fits.witness]; omega)] at h4
    simp at h4
  have hcol := List.getElem?_eq_getElem hlt
  refine ⟨_, hcol, ?_⟩
  have h5 := first_claim hpre hS.fits.witness hS.fits.publicInput hcol (r := 0)
    ⟨Or.inl rfl, le_rfl, hrot i⟩ hopen
  rw [h4, Option.some_inj, zpow_zero, mul_one] at h5
  intro j _
  rw [hbad i xs _ hxs hcol _ hyi h5.symm, getD_publicColumn]

/-- **C103**, in part: with public inputs that are chosen before the challenge `y` is drawn, as is the table, an
accepted proof says that the table satisfies the circuit and has these public inputs, unless a bad challenge was
drawn (the sets of bad challenges are those of C66, and one of at most `2 ^ n - 1` values of `y` for each column of
public inputs). Missing: public inputs that are chosen after the challenge, for which this is false
(`C103_any_value`); what is missing in C66; and columns that are used with a negative rotation (`C38_rotated`). -/
theorem C103_statement_partial (hS : PlaceholderSetup L A n fuel d c order t)
    (hperm : permPreprocess L n fuel d c.copies order delta mqc = some pre) (hdeg : DegreesFit c)
    {dg : Nat} (hdg : ∀ g ∈ c.gates, ∀ e ∈ g.constraints, e.degree ≤ dg)
    (hone : c.copies ≠ [] → pre.parts = 1)
    (hlone : c.lookups.gates ≠ [] → (c.lookups.parts mqc).length = 1)
    (hdelta : c.copies ≠ [] → DeltaSeparates n order.length delta)
    {w : Nat} (hlk : c.lookups.gates ≠ [] → LookupsCheckable t c.lookups d.usableRows w)
    (hrot : ∀ i r, VarUsed d c (d.witness + i) r → 0 ≤ r) :
    ∃ B : BadChallenges F, B.Small c n d.usableRows order.length dg w ∧
      ∀ publicInput : List (List F),
      (∀ i xs, publicInput[i]? = some xs → publicSize c.publicInputSizes i xs ≤ 2 ^ n) →
      ∃ badY : Finset F, badY.card ≤ publicInput.length * (2 ^ n - 1) ∧
      ∀ {S H Com Pr Data Obj : Type} (C : CommScheme F S Com Pr Data Obj) (T : PlonkTranscript S F H Com)
        (hash : H) (obj o0 : Obj) (pd : PublicData F H Com Data) (t0 : PlonkTable F),
        placeholderPreprocess C T L n fuel d c order delta mqc hash t0 obj = some (pd, o0) →
        t0.constants = t.constants → t0.selectors = t.selectors →
        ∀ (proof : PlaceholderProof F Com Pr) (m : ProverMessages F), m.Sized n →
          OpenedTruly L n d c pd.common pre t m proof →
          ∀ (vcom lcom pcom qcom : Com), proof.commitments.find VARIABLE_BATCH = some vcom →
            (c.lookups.gates ≠ [] → proof.commitments.find LOOKUP_BATCH = some lcom) →
            (c.copies ≠ [] ∨ c.lookups.gates ≠ [] → proof.commitments.find PERMUTATION_BATCH = some pcom) →
            proof.commitments.find QUOTIENT_BATCH = some qcom →
            ∀ x, x = readChallenges T c m.sorted.length vcom lcom pcom qcom
              (C.setup o0 (T.key pd.common.hash pd.common.fixedCommitment) pd.common.schemeData).1 →
            B.Avoided c m x → x.y ∉ badY →
            placeholderVerifyPublic C T L n true d c pd.common proof o0 publicInput = some true →
            TableSatisfies d c t ∧ PublicInputsIn c n t publicInput := by
  obtain ⟨B, hB, hsound⟩ := C66_soundness_partial hS hperm hdeg hdg hone hlone hdelta hlk
  refine ⟨B, hB, fun publicInput hfit => ?_⟩
  obtain ⟨badY, hbY, hbound⟩ := public_inputs_bound (delta := delta) (mqc := mqc) hS hrot publicInput hfit
  refine ⟨badY, hbY, ?_⟩
  intro S H Com Pr Data Obj C T hash obj o0 pd t0 hpre htc hts proof m hm ho vcom lcom pcom qcom hvc hlc hpc hqc x hx
    hav hy hacc
  have hacc' := ((C38_verdict hS.lib hS.small hS.rows true publicInput hfit).1 hacc).2.1
  subst hx
  obtain ⟨h1, h2, h3⟩ := hsound C T hash obj o0 pd t0 hpre htc hts proof m hm ho vcom lcom pcom qcom hvc hlc hpc hqc
    hav hacc'
  refine ⟨⟨h1, h2, h3⟩, hbound C T hash obj o0 pd t0 hpre proof ho.variable ?_ true hacc⟩
  have hp := preprocess_facts hpre
  have hpe : pre = pd.perm := Option.some_inj.1 (hperm.symm.trans hp.perm)
  have hpts := verifierPoints_eq L n d c pd.common proof.challenge (columnsRotations_spec d c _ hp.rotations).1
  have e1 := (accepted_opening (m := m) (fun h => by rw [hp.parts, ← hpe]; exact hone h)
    (by rw [hp.mqcEq]; exact hlone)
    (fun h => by
      have := ho _ hpts LOOKUP_BATCH (Or.inr (Or.inr (Or.inl ⟨h, rfl⟩)))
      simp [EvalStorage.batchSize, this, committedPolys, LOOKUP_BATCH, FIXED_BATCH, VARIABLE_BATCH,
        PERMUTATION_BATCH, QUOTIENT_BATCH])
    hacc' hvc hlc hpc hqc rfl).1
  rw [← e1]
  exact hy

end

/-! ### over KZG -/

section
variable {F : Type} [Field F] [LinearOrder F] {G1 G2 GT : Type} [AddCommGroup G1] [Module F G1]
  [AddCommGroup G2] [Module F G2] [AddCommGroup GT] [Module F GT] [DecidableEq GT]
variable {L : FftLib F} {A n fuel : Nat} {d : TableDesc} {c : Circuit F} {order : List PlonkVar}
  {t : PlonkTable F} {delta : F} {mqc : Nat} {pre : PermData F}

/-- **C103**, in part, for placeholder over KZG: the provers are those of `C102_kzg_sound_partial`. With public inputs
that are chosen before the challenge `y` is drawn, an accepted proof says that the table satisfies the circuit and has
these public inputs. Missing: what is missing in `C103_statement_partial` and `C102_kzg_sound_partial`. -/
theorem C103_kzg_statement_partial (hS : PlaceholderSetup L A n fuel d c order t)
    (hperm : permPreprocess L n fuel d c.copies order delta mqc = some pre) (hdeg : DegreesFit c)
    {dg : Nat} (hdg : ∀ g ∈ c.gates, ∀ e ∈ g.constraints, e.degree ≤ dg)
    (hone : c.copies ≠ [] → pre.parts = 1)
    (hlone : c.lookups.gates ≠ [] → (c.lookups.parts mqc).length = 1)
    (hdelta : c.copies ≠ [] → DeltaSeparates n order.length delta)
    {w : Nat} (hlk : c.lookups.gates ≠ [] → LookupsCheckable t c.lookups d.usableRows w)
    (hrot : ∀ i r, VarUsed d c (d.witness + i) r → 0 ≤ r)
    (hn : 1 ≤ n) (hr : RotationsDistinct n d c) (hu : c.lookups.gates ≠ [] → 2 ≤ d.usableRows)
    (P : Pairing F G1 G2 GT) (hP : P.e P.one1 P.one2 ≠ 0) (dk tk : Nat) (hdk : 2 ^ n ≤ dk) :
    ∃ B : BadChallenges F, B.Small c n d.usableRows order.length dg w ∧
      ∀ publicInput : List (List F),
      (∀ i xs, publicInput[i]? = some xs → publicSize c.publicInputSizes i xs ≤ 2 ^ n) →
      ∃ badY : Finset F, badY.card ≤ publicInput.length * (2 ^ n - 1) ∧
      ∀ m : ProverMessages F, m.Sized n → ∀ z : EvalStorage F, ValuesSized c (committedPolys L c pre t m) z →
      ∀ y : F, y ≠ 0 → y ∉ badY → ∃ badGamma : Finset F,
        badGamma.card ≤ ((openedBatches c).map fun k => (committedPolys L c pre t m k).length).sum - 1 ∧
        ∀ gamma ∉ badGamma, ∀ q : List F, q.length ≤ dk → ∃ badTrapdoor : Finset F,
          badTrapdoor.card ≤ dk - 1 + 2 ^ n ∧ ∀ alpha ∉ badTrapdoor,
          ∀ {S H : Type} (codec : PointCodec G1) (_ : codec.Lawful) (KT : KzgTranscript S F)
            (T : PlonkTranscript S F H (List UInt8)) (hash : H)
            (C : CommScheme F S (List UInt8) G1 Bool (KzgScheme F)),
            C = kzgComm L P (batchedKzgSetup P dk tk alpha) codec KT →
            ∀ (pd : PublicData F H (List UInt8) Bool) (o0 : KzgScheme F) (t0 : PlonkTable F),
            placeholderPreprocess C T L n fuel d c order delta mqc hash t0 C.new = some (pd, o0) →
            t0.constants = t.constants → t0.selectors = t.selectors →
            ∀ (proof : PlaceholderProof F (List UInt8) G1), proof.eval = (z, evalPoly q alpha • P.one1) →
              (proof.commitments.insert FIXED_BATCH pd.common.fixedCommitment).keys = openedBatches c →
              (∀ k ∈ openedBatches c, k ≠ FIXED_BATCH → ∀ blob, proof.commitments.find k = some blob →
                CommitsTo codec P.one1 alpha blob (committedPolys L c pre t m k)) →
              ∀ (vcom lcom pcom qcom : List UInt8), proof.commitments.find VARIABLE_BATCH = some vcom →
              (c.lookups.gates ≠ [] → proof.commitments.find LOOKUP_BATCH = some lcom) →
              (c.copies ≠ [] ∨ c.lookups.gates ≠ [] → proof.commitments.find PERMUTATION_BATCH = some pcom) →
              proof.commitments.find QUOTIENT_BATCH = some qcom →
              B.Avoided c m (readChallenges T c m.sorted.length vcom lcom pcom qcom
                (T.key pd.common.hash pd.common.fixedCommitment)) →
              (readChallenges T c m.sorted.length vcom lcom pcom qcom
                (T.key pd.common.hash pd.common.fixedCommitment)).y = y →
              KzgDraws C KT L n d c pd.common o0 z y
                (proof.commitments.insert FIXED_BATCH pd.common.fixedCommitment)
                (openingState T c m.sorted.length vcom lcom pcom qcom
                  (T.key pd.common.hash pd.common.fixedCommitment)) gamma →
              placeholderVerifyPublic C T L n true d c pd.common proof o0 publicInput = some true →
              TableSatisfies d c t ∧ PublicInputsIn c n t publicInput := by
  obtain ⟨B, hB, hsound⟩ := C103_statement_partial hS hperm hdeg hdg hone hlone hdelta hlk hrot
  refine ⟨B, hB, fun publicInput hfit => ?_⟩
  obtain ⟨badY, hbY, hsound⟩ := hsound publicInput hfit
  refine ⟨badY, hbY, fun m hm z hz y hy hyb => ?_⟩
  obtain ⟨badGamma, hbg, h⟩ := C102_opened_truly hS hperm hone hlone hn hr hu P hP dk tk hdk m hm z hz y hy
  refine ⟨badGamma, hbg, fun gamma hgamma q hq => ?_⟩
  obtain ⟨badTrapdoor, hbt, h⟩ := h gamma hgamma q hq
  refine ⟨badTrapdoor, hbt, fun alpha halpha S H codec hcodec KT T hash C hC pd o0 t0 hpre htc hts proof heval hkeys
    hcom vcom lcom pcom qcom hvc hlc hpc hqc hav hyy hdraw hacc => ?_⟩
  have hacc' := ((C38_verdict hS.lib hS.small hS.rows true publicInput hfit).1 hacc).2.1
  have ho := h alpha halpha codec hcodec KT T hash C hC pd o0 t0 hpre htc hts proof heval hkeys hcom vcom lcom pcom
    qcom hvc hlc hpc hqc hyy hdraw hacc'
  refine hsound C T hash C.new o0 pd t0 hpre htc hts proof m hm ho vcom lcom pcom qcom hvc hlc hpc hqc _ rfl ?_ ?_ hacc
  · subst hC
    exact hav
  · subst hC
    exact hyy ▸ hyb

end

end Crypto3Zk
