import Verif.Lemmas.PlaceholderHiding
import Verif.Props.PlonkTable
import Verif.Props.PlaceholderKzgSound
import Verif.Props.PlaceholderPublic

/-!
# C104: what `zk_padding` hides
-/

set_option linter.unusedSectionVars false

namespace Crypto3Zk

open Polynomial

section
variable {F : Type} [Field F] [DecidableEq F] {L : FftLib F} {A n : Nat}

/-- A shift of the values that pad the witness turns the padded columns of one witness into columns of the other with
values that differ by `δ` at the points. -/
theorem columns_shifted (hL : L.Lawful A) (hn : n ≤ A) {T1 T2 : PlonkTable F} (hT : SamePublic T1 T2)
    (hrows : T1.rowsAmount < 2 ^ 31) (hp : paddedRows T1.rowsAmount = some (2 ^ n)) (Z : Nat → Finset F)
    (hcard : ∀ i, (Z i).card + T1.rowsAmount ≤ 2 ^ n) (hZ : ∀ i, ∀ z ∈ Z i, z ^ 2 ^ n ≠ 1)
    (δ : Nat → F → F) :
    ∃ shift : Nat → F, (∀ k, T1.witnesses.length * (2 ^ n - T1.rowsAmount) ≤ k → shift k = 0) ∧
      ∀ rnd : Nat → F, ∃ t1 t2, zkPadding rnd T1 = some (t1, 2 ^ n) ∧
      zkPadding (fun k => rnd k + shift k) T2 = some (t2, 2 ^ n) ∧ SamePublic t1 t2 ∧
      ∀ i, ∀ z ∈ Z i, (columnPoly L t2 i .witness).eval z =
        (columnPoly L t1 i .witness).eval z + if i < T1.witnesses.length then δ i z else 0 := by
  set u := T1.rowsAmount with hu
  have hu2 : T2.rowsAmount = u := hT.rows.symm
  let b := 2 ^ n - u
  have hlt : u < 2 ^ n := by
    obtain ⟨k, h1, -, h3, -⟩ := paddedRows_eq _ hrows
    rw [hp, Option.some_inj] at h1
    omega
  have hb : 0 < b := by omega
  choose p hpd hpv hpz using fun i => exists_mask_values hL hn u
    (fun j => (T2.witnesses.getD i []).getD j 0 - (T1.witnesses.getD i []).getD j 0) (Z i) (δ i)
    (hcard i) (hZ i)
  refine ⟨fun k => if k < T1.witnesses.length * b then (p (k / b)).eval (L.root n ^ (u + k % b)) else 0,
    fun k hk => if_neg (by simpa only [b, not_lt] using hk), fun rnd => ?_⟩
  set shift : Nat → F := fun k =>
    if k < T1.witnesses.length * b then (p (k / b)).eval (L.root n ^ (u + k % b)) else 0 with hshift
  have e1 := zkPadding_eq rnd T1 rfl hp
  have e2 := zkPadding_eq (fun k => rnd k + shift k) T2 hu2 hp
  have hz : ∀ k, T1.witnesses.length * b ≤ k → rnd k = rnd k + shift k := fun k hk => by
    simp only [hshift]
    rw [if_neg (by omega), add_zero]
  refine ⟨_, _, e1, e2, ?_, ?_⟩
  · have hc : ∀ (r : Nat → F) (T : PlonkTable F),
        ∀ c ∈ (fillColumns r u (2 ^ n) 0 (T.witnesses.map fun c => resize c u 0)).1, c.length = 2 ^ n :=
      fun r T => length_fillColumns hlt.le (by simp [resize_length])
    refine (fun a b c d => ⟨rowsAmount_congr (hc _ _) (hc _ _) a b c d, a, b, c, d⟩) ?_ ?_ ?_ ?_
    · simp [fillColumns_length, hT.count]
    · simp only [hT.publicInputs, ← hu]
    · simp only [← hT.constants, ← hT.count]
      rw [fillColumns_congr _ _ _ _ hz]
    · simp only [← hT.constants, ← hT.count, ← hT.selectors]
      rw [fillColumns_congr _ _ _ _ (fun k hk => hz k (le_trans (Nat.mul_le_mul_right _ (by omega)) hk))]
  · intro i z hz
    by_cases hi : i < T1.witnesses.length
    · obtain ⟨c1, h1, g1⟩ := zkPadding_witness rfl hp hlt.le e1 hi
      obtain ⟨c2, h2, g2⟩ := zkPadding_witness hu2 hp hlt.le e2 (hT.count ▸ hi)
      have hl1 : (T1.witnesses.getD i []).length ≤ u := by
        rw [List.getD_eq_getElem?_getD, List.getElem?_eq_getElem hi, Option.getD_some]
        exact ((rowsAmount_le T1 u).1 le_rfl).1 _ (List.getElem_mem hi)
      have hl2 : (T2.witnesses.getD i []).length ≤ u := by
        have hi2 : i < T2.witnesses.length := hT.count ▸ hi
        rw [List.getD_eq_getElem?_getD, List.getElem?_eq_getElem hi2, Option.getD_some]
        exact ((rowsAmount_le T2 u).1 hu2.le).1 _ (List.getElem_mem hi2)
      have key : dfsPoly L c2 = dfsPoly L c1 + p i := by
        refine eq_of_rows hL hn (dfsPoly_degree hL hn _ g2.1)
          (lt_of_le_of_lt (natDegree_add_le _ _) (max_lt (dfsPoly_degree hL hn _ g1.1) (hpd i))) ?_
        intro j hj
        rw [eval_add, dfsPoly_eval_row hL n hn _ g2.1 j hj, dfsPoly_eval_row hL n hn _ g1.1 j hj, g1.getD hl1 hj,
          g2.getD hl2 hj]
        by_cases hju : j < u
        · rw [if_pos hju, if_pos hju, hpv i j hju]; ring
        · rw [if_neg hju, if_neg hju]
          have hjb : j - u < b := by omega
          have hd : (i * (2 ^ n - u) + (j - u)) / b = i := by
            rw [Nat.mul_comm, Nat.mul_add_div hb, Nat.div_eq_of_lt hjb, add_zero]
          have hm : (i * (2 ^ n - u) + (j - u)) % b = j - u := by
            rw [Nat.mul_comm, Nat.mul_add_mod, Nat.mod_eq_of_lt hjb]
          have hlt' : i * (2 ^ n - u) + (j - u) < T1.witnesses.length * b := by
            have := Nat.mul_le_mul_right b (show i + 1 ≤ T1.witnesses.length from hi)
            rw [Nat.add_mul, Nat.one_mul] at this
            exact lt_of_lt_of_le (Nat.add_lt_add_left hjb _) this
          simp only [hshift]
          rw [if_pos hlt', hd, hm, show u + (j - u) = j by omega]
      rw [columnPoly_witness h1, columnPoly_witness h2, key, eval_add, hpz i z hz, if_pos hi]
    · have hn1 : ∀ (r : Nat → F) (T : PlonkTable F), T.witnesses.length ≤ i →
          (fillColumns r u (2 ^ n) 0 (T.witnesses.map fun c => resize c u 0)).1[i]? = none := fun r T h => by
        rw [List.getElem?_eq_none]
        simpa [fillColumns_length] using h
      unfold columnPoly PlonkTable.columnsOf
      simp only [Option.getD_some, List.getD_eq_getElem?_getD, ← hu]
      rw [hn1 _ T1 (by omega), hn1 _ T2 (by have := hT.count; omega), if_neg hi, add_zero]

/-- **C104** in part: if the padding has as many rows as there are points, the values of the witness columns at the
points (which are not rows) say nothing about the witness. For two tables for the same statement, shifting the random
values of the padding, one to one, by values that do not depend on them turns the values for one witness into those
for the other, and leaves the constants and selectors as they are; only the values that pad the witness are shifted. The points `Z i` at which column `i` is seen are any:
those that are opened and, for KZG, the trapdoor, as the commitment is the value there. -/
theorem C104_columns_hidden_partial (hL : L.Lawful A) (hn : n ≤ A) {T1 T2 : PlonkTable F} (hT : SamePublic T1 T2)
    (hrows : T1.rowsAmount < 2 ^ 31) (hp : paddedRows T1.rowsAmount = some (2 ^ n)) (Z : Nat → Finset F)
    (hcard : ∀ i, (Z i).card + T1.rowsAmount ≤ 2 ^ n) (hZ : ∀ i, ∀ z ∈ Z i, z ^ 2 ^ n ≠ 1) :
    ∃ shift : Nat → F, (∀ k, T1.witnesses.length * (2 ^ n - T1.rowsAmount) ≤ k → shift k = 0) ∧
      ∀ rnd : Nat → F, ∃ t1 t2, zkPadding rnd T1 = some (t1, 2 ^ n) ∧
      zkPadding (fun k => rnd k + shift k) T2 = some (t2, 2 ^ n) ∧ SamePublic t1 t2 ∧
      ∀ i, ∀ z ∈ Z i, (columnPoly L t1 i .witness).eval z = (columnPoly L t2 i .witness).eval z := by
  obtain ⟨shift, h0, h⟩ := columns_shifted hL hn hT hrows hp Z hcard hZ (fun _ _ => 0)
  refine ⟨shift, h0, fun rnd => ?_⟩
  obtain ⟨t1, t2, e1, e2, hs, hv⟩ := h rnd
  refine ⟨t1, t2, e1, e2, hs, fun i z hz => ?_⟩
  rw [hv i z hz, ite_self, add_zero]
end

section
variable {F : Type} [Field F] [LinearOrder F] {L : FftLib F} {A n fuel : Nat} {d : TableDesc} {c : Circuit F}
  {order : List PlonkVar} {t : PlonkTable F} {delta : F} {mqc : Nat}
variable {G1 G2 GT : Type} [AddCommGroup G1] [Module F G1] [AddCommGroup G2] [Module F G2]
  [AddCommGroup GT] [Module F GT] [DecidableEq GT]

/-- What an honest proof over KZG has for the witness columns: the values at the challenge and at the trapdoor. -/
theorem honest_kzg_variable (hS : PlaceholderSetup L A n fuel d c order t) (hlk : c.lookups.gates = [])
    (hn : 1 ≤ n) (hr : RotationsDistinct n d c)
    {P : Pairing F G1 G2 GT} {dk tk : Nat} (hdk : 2 ^ n ≤ dk) (htk : 2 ^ n ≤ tk) {alpha : F} {S H : Type}
    {codec : PointCodec G1} (hcodec : codec.Lawful) {KT : KzgTranscript S F} {T : PlonkTranscript S F H (List UInt8)}
    {hash : H} {C : CommScheme F S (List UInt8) G1 Bool (KzgScheme F)}
    (hC : C = kzgComm L P (batchedKzgSetup P dk tk alpha) codec KT)
    {proof : PlaceholderProof F (List UInt8) G1}
    (hproof : HonestProof C T L n fuel d c order delta mqc hash t proof) (hy : proof.challenge ≠ 0) :
    (∃ rots, columnsRotations d c = some rots ∧ ∀ i col, t.witnesses[i]? = some col →
      proof.eval.1.getPoly VARIABLE_BATCH i =
        some ((rots.getD i []).map fun r => (dfsPoly L col).eval (proof.challenge * L.root n ^ r))) ∧
    ∃ blob, proof.commitments.find VARIABLE_BATCH = some blob ∧
      CommitsTo codec P.one1 alpha blob (t.witnesses.map L.coefficients ++ t.publicInputs.map L.coefficients) := by
  obtain ⟨pd, o0, hpre, hprove⟩ := hproof
  subst hC
  have hdk0 : 0 < dk := lt_of_lt_of_le (by positivity) hdk
  have hp := preprocess_facts hpre
  obtain ⟨D, h⟩ := prove_run (kzgComm_rootLaws KT _) hprove
  obtain ⟨c1, -⟩ := h.find_commitments
  obtain ⟨hl, -⟩ := h.lengths hS hp (fun h => absurd hlk h)
  obtain ⟨hpts, hvp, -, -⟩ := h.pts_eq hS hp
  have hok : ∀ k i, KzgPoints dk (challengeCoset L n proof.challenge) (lpcRequested k i D.pts) := by
    intro k i
    have hnd := requested_nodup hS hp hn hr (fun h => absurd hlk h) hy hvp k i
    have hsub : ∀ x ∈ lpcRequested k i D.pts, x ∈ challengeCoset L n proof.challenge := by
      intro x hx
      obtain ⟨r, rfl⟩ := requested_rotation (columnsRotations_spec d c _ hp.rotations).1 hvp k i x hx
      exact mem_challengeCoset hS.lib hS.small hy r
    refine ⟨hnd, ?_, hsub⟩
    rw [← List.toFinset_card_of_nodup hnd]
    exact (Finset.card_le_card fun x hx => hsub x (List.mem_toFinset.1 hx)).trans ((challengeCoset_card _).trans hdk)
  have hops : ∀ op ∈ D.pts, (∃ k xs, op = .points k xs) ∨ ∃ k i xs, op = .pointsTo k i xs := by
    rw [hpts]; exact pointOps_ops _ _ _ _ _ _ _ _ _
  have sess := honest_session hS.lib hS.small (hasLaws_lpc A hS.small) hdk hl hops
    (okPoints := KzgPoints dk (challengeCoset L n proof.challenge)) (fun k i _ => hok k i)
  obtain ⟨hfind, -⟩ := kzgComm_complete hS.lib hcodec KT ((challengeCoset_card _).trans htk) hdk0 _ _ _ _ _ sess
    o0 D.obj _ _ D.st6 _ _ hp.run hp.data trivial h.run h.eval
  have hpre0 := (kzg_run_new KT _).symm.trans hp.run
  have hrun := (kzg_run_from KT _ _ _ hpre0).symm.trans h.run
  have hcm : LpcOp.commit VARIABLE_BATCH ∈
      fixedOps L n pd.perm t ++ honestOps L n c t D.perm D.sorted D.vl D.chunks := by
    rw [List.mem_append, commit_mem_fixedOps, commit_mem_honestOps]
    exact .inr (.inl rfl)
  have hreq := fun i => (pointOps_requested L n d c pd.common.rotations pd.perm.parts
    d.usableRows (pd.common.permutedColumns.length * 2 + 2) proof.challenge i).1
  refine ⟨⟨_, hp.rotations, ?_⟩, ?_⟩
  · intro i col hcol
    have hi := (List.getElem?_eq_some_iff.1 hcol).1
    have hf := hfind VARIABLE_BATCH hcm
    have hiP : (honestPolys L pd.perm t D.perm D.sorted D.vl D.chunks VARIABLE_BATCH)[i]? =
        some (L.coefficients col) := by
      show (t.witnesses.map L.coefficients ++ t.publicInputs.map L.coefficients)[i]? = _
      rw [List.getElem?_append_left (by simpa using hi), List.getElem?_map, hcol]
      rfl
    rw [EvalStorage.getPoly, hf, Option.bind_eq_bind, Option.bind_some, List.getElem?_mapIdx, hiP, Option.map_some,
      hpts, hreq i, if_pos (by have := hS.fits.witness; omega), List.map_map, Option.some_inj]
    refine List.map_congr_left fun r _ => ?_
    rw [dfsPoly, eval_toPoly]
    simp [FriDomain.elem, FftLib.domain]
  · have hfound := (kzg_inv hrun).found VARIABLE_BATCH ((committed_container L VARIABLE_BATCH _).2 (by
      rw [← List.append_assoc]; exact List.mem_append_left _ hcm))
    have h8 := (h.coms hp.root VARIABLE_BATCH _).2 ⟨hcm, hfound⟩
    rw [OMap.find_insert, if_neg (by decide)] at h8
    refine ⟨_, h8, ?_⟩
    have : (t.witnesses.map L.coefficients ++ t.publicInputs.map L.coefficients) =
      honestPolys L pd.perm t D.perm D.sorted D.vl D.chunks VARIABLE_BATCH := rfl
    rw [this]
    refine blob_commitsTo hS.lib hcodec P.one1 alpha VARIABLE_BATCH ?_
    rw [← List.append_assoc, lpcAppended_append, (sess.appendedPts VARIABLE_BATCH).1, List.append_nil]
    exact sess.polys VARIABLE_BATCH

/-- **C104** is false: `zk_padding` may leave a single row of padding, and then the proofs for two different witnesses
are different, whatever the random values: over KZG, the commitment to a witness column and its value at the
challenge are two values of a polynomial in which only one row is random. No proof can have been made from
both witnesses, unless the challenge is one of less than `2 ^ n` values and zero. -/
theorem C104_one_row_reveals (hn : 1 ≤ n) {T1 T2 : PlonkTable F} (hT : SamePublic T1 T2)
    (hp : paddedRows T1.rowsAmount = some (2 ^ n)) (hone : T1.rowsAmount + 1 = 2 ^ n)
    {i j : Nat} (hi : i < T1.witnesses.length) (hj : j < T1.rowsAmount)
    (hne : (T1.witnesses.getD i []).getD j 0 ≠ (T2.witnesses.getD i []).getD j 0)
    (hlk : c.lookups.gates = []) (hr : RotationsDistinct n d c)
    (P : Pairing F G1 G2 GT) (hP : P.one1 ≠ 0) {dk tk : Nat} (hdk : 2 ^ n ≤ dk) (htk : 2 ^ n ≤ tk)
    {alpha : F} (halpha : alpha ^ 2 ^ n ≠ 1) (hL : L.Lawful A) (hnA : n ≤ A) :
    ∃ bad : Finset F, bad.card ≤ 2 ^ n ∧
      ∀ {S H : Type} (codec : PointCodec G1) (_ : codec.Lawful) (KT : KzgTranscript S F)
        (T : PlonkTranscript S F H (List UInt8)) (hash : H) (C : CommScheme F S (List UInt8) G1 Bool (KzgScheme F)),
        C = kzgComm L P (batchedKzgSetup P dk tk alpha) codec KT →
        ∀ (rnd1 rnd2 : Nat → F) (t1 t2 : PlonkTable F), zkPadding rnd1 T1 = some (t1, 2 ^ n) →
          zkPadding rnd2 T2 = some (t2, 2 ^ n) →
          PlaceholderSetup L A n fuel d c order t1 → PlaceholderSetup L A n fuel d c order t2 →
          ∀ proof1 proof2, HonestProof C T L n fuel d c order delta mqc hash t1 proof1 →
            HonestProof C T L n fuel d c order delta mqc hash t2 proof2 → proof1 = proof2 →
            proof1.challenge ∈ bad := by
  classical
  set u := T1.rowsAmount with hu
  have hu2 : T2.rowsAmount = u := hT.rows.symm
  have hlt : u < 2 ^ n := by omega
  obtain ⟨p, hpd, hpv, hpz⟩ := exists_mask hL hnA u
    (fun j => (T1.witnesses.getD i []).getD j 0 - (T2.witnesses.getD i []).getD j 0) {alpha}
    (by rw [Finset.card_singleton]; omega) (by simpa using halpha)
  have hp0 : p ≠ 0 := by
    rintro rfl
    have := hpv j hj
    rw [eval_zero] at this
    exact hne (sub_eq_zero.1 this.symm)
  refine ⟨insert 0 p.roots.toFinset, ?_, ?_⟩
  · refine (Finset.card_insert_le _ _).trans ?_
    have h1 := Multiset.toFinset_card_le p.roots
    have h2 := p.card_roots'
    omega
  rintro S H codec hcodec KT T hash C hC rnd1 rnd2 t1 t2 e1 e2 hS1 hS2 proof _ h1 h2 rfl
  by_cases hy : proof.challenge = 0
  · rw [hy]; exact Finset.mem_insert_self _ _
  refine Finset.mem_insert_of_mem ?_
  rw [Multiset.mem_toFinset, mem_roots hp0]
  have hi2 : i < T2.witnesses.length := hT.count ▸ hi
  obtain ⟨c1, w1, g1⟩ := zkPadding_witness rfl hp hlt.le e1 hi
  obtain ⟨c2, w2, g2⟩ := zkPadding_witness hu2 hp hlt.le e2 hi2
  obtain ⟨⟨rots, hrots, z1⟩, blob, b1, k1⟩ := honest_kzg_variable hS1 hlk hn hr hdk htk hcodec hC h1 hy
  obtain ⟨⟨rots', hrots', z2⟩, blob', b2, k2⟩ := honest_kzg_variable hS2 hlk hn hr hdk htk hcodec hC h2 hy
  rw [hrots, Option.some_inj] at hrots'
  rw [b1, Option.some_inj] at b2
  subst hrots' b2
  -- the values at the challenge are the same
  have hchal : (dfsPoly L c1).eval proof.challenge = (dfsPoly L c2).eval proof.challenge := by
    have h := (z1 i c1 w1).symm.trans (z2 i c2 w2)
    rw [Option.some_inj, List.map_inj_left] at h
    obtain ⟨-, -, -, hm⟩ := columnsRotations_spec d c _ hrots
    have h0 := h 0 ((hm i (by
      have := hS1.fits.witness
      have := (List.getElem?_eq_some_iff.1 w1).1
      simp only [TableDesc.width]
      omega) 0).2 (.inl rfl))
    simpa using h0
  -- and those at the trapdoor
  have htrap : (dfsPoly L c1).eval alpha = (dfsPoly L c2).eval alpha := by
    have hl : (t1.witnesses.map L.coefficients ++ t1.publicInputs.map L.coefficients).length =
        (t2.witnesses.map L.coefficients ++ t2.publicInputs.map L.coefficients).length := by
      rw [List.length_append, List.length_append, List.length_map, List.length_map, List.length_map, List.length_map,
        hS1.fits.witness, hS2.fits.witness, hS1.fits.publicInput, hS2.fits.publicInput]
    have h1 := k1 i (L.coefficients c1) (by
      rw [List.getElem?_append_left (by simpa using (List.getElem?_eq_some_iff.1 w1).1), List.getElem?_map, w1]; rfl)
    have h2 := k2 i (L.coefficients c2) (by
      rw [List.getElem?_append_left (by simpa using (List.getElem?_eq_some_iff.1 w2).1), List.getElem?_map, w2]; rfl)
    rw [hl] at h1
    have h3 := h1.symm.trans h2
    rw [Option.some_inj] at h3
    have h4 := sub_eq_zero.2 h3
    rw [← sub_smul, smul_eq_zero] at h4
    rw [dfsPoly, dfsPoly, eval_toPoly, eval_toPoly]
    exact sub_eq_zero.1 (h4.resolve_right hP)
  have hl1 : (T1.witnesses.getD i []).length ≤ u := by
    rw [List.getD_eq_getElem?_getD, List.getElem?_eq_getElem hi, Option.getD_some]
    exact ((rowsAmount_le T1 u).1 le_rfl).1 _ (List.getElem_mem hi)
  have hl2 : (T2.witnesses.getD i []).length ≤ u := by
    rw [List.getD_eq_getElem?_getD, List.getElem?_eq_getElem hi2, Option.getD_some]
    exact ((rowsAmount_le T2 u).1 hu2.le).1 _ (List.getElem_mem hi2)
  -- so the difference of the columns is the polynomial `p`
  have key : dfsPoly L c1 - dfsPoly L c2 = p := by
    have hinj : Set.InjOn (fun j => L.root n ^ j) (Finset.range u : Set Nat) := by
      intro a ha b hb he
      have ha : a < u := by simpa using ha
      have hb : b < u := by simpa using hb
      exact elem_injective hL n hnA a b (by omega) (by omega) he
    have hd : (dfsPoly L c1 - dfsPoly L c2).natDegree < 2 ^ n := lt_of_le_of_lt (natDegree_sub_le _ _)
      (max_lt (dfsPoly_degree hL hnA _ g1.1) (dfsPoly_degree hL hnA _ g2.1))
    have hna : alpha ∉ (Finset.range u).image fun j => L.root n ^ j := by
      intro ha
      obtain ⟨j, -, rfl⟩ := Finset.mem_image.1 ha
      exact halpha (by rw [← pow_mul, mul_comm, pow_mul, root_pow_card hL n hnA, one_pow])
    refine eq_of_degree_sub_lt_of_eval_finset_eq (insert alpha ((Finset.range u).image fun j => L.root n ^ j)) ?_ ?_
    · rw [Finset.card_insert_of_notMem hna, Finset.card_image_of_injOn hinj, Finset.card_range, hone]
      exact lt_of_le_of_lt degree_le_natDegree
        (WithBot.coe_lt_coe.2 (lt_of_le_of_lt (natDegree_sub_le _ _) (max_lt hd hpd)))
    · intro x hx
      rcases Finset.mem_insert.1 hx with rfl | hx
      · rw [hpz _ (by simp), eval_sub, htrap, sub_self]
      · obtain ⟨j, hj, rfl⟩ := Finset.mem_image.1 hx
        have hj := Finset.mem_range.1 hj
        rw [hpv j hj, eval_sub, dfsPoly_eval_row hL n hnA _ g1.1 j (by omega),
          dfsPoly_eval_row hL n hnA _ g2.1 j (by omega), g1.getD hl1 (by omega), g2.getD hl2 (by omega), if_pos hj,
          if_pos hj]
  rw [IsRoot, ← key, eval_sub, hchal, sub_self]
end

end Crypto3Zk
