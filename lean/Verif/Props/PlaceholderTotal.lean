import Verif.Lemmas.PlaceholderLpcTotal
import Verif.Props.PlaceholderPublic

/-!
# C65: the placeholder prover produces a proof, which is accepted

The bad challenges are fixed before the commitment scheme and the transcript.
-/

set_option linter.unusedSectionVars false

namespace Crypto3Zk

open Polynomial

variable {F : Type} [Field F] [DecidableEq F]
variable {L : FftLib F} {A n fuel : Nat} {d : TableDesc} {c : Circuit F} {order : List PlonkVar}
  {t : PlonkTable F} {delta : F} {mqc : Nat} {pre : PermData F}

theorem PlaceholderSetup.permSetup_of (h : PlaceholderSetup L A n fuel d c order t) {gi : List Nat}
    (hperm : permPreprocess L n fuel d c.copies order delta mqc = some pre)
    (hgi : permutedIndices d order = some gi) : PermSetup L A n d c.copies order gi delta mqc pre where
  lib := h.lib
  small := h.small
  rows := h.rows
  usable := h.usable
  width := h.width
  rows32 := by rw [h.rows]; exact Nat.pow_le_pow_right (by norm_num) h.rows32
  copies := h.copies
  nodup := h.nodup
  members := h.members
  indices := hgi
  data := ⟨fuel, h.fuel, hperm⟩

theorem PlaceholderSetup.lookupSetup_of (h : PlaceholderSetup L A n fuel d c order t)
    (hperm : permPreprocess L n fuel d c.copies order delta mqc = some pre) (hne : c.lookups.gates ≠ []) :
    LookupSetup L A n t c.lookups (lookupData pre) := by
  obtain ⟨-, -, -, -, q1, q2, q3, -, -, -, q4, -, -⟩ := permPreprocess_shape h.lib h.small hperm
  exact
    { lib := h.lib
      small := h.small
      fits := h.rows32.trans (by norm_num)
      rect := h.fits.rect
      rows := h.fits.rows
      used := by simp only [lookupData, q4]; exact h.used hne
      spare := by simp only [lookupData, q4]; exact h.rows ▸ h.usable
      qLast := by simp only [lookupData, q1, q4, dfsPoly]
      qBlind := by simp only [lookupData, q2, q4, dfsPoly]
      lagrange0 := by simp only [lookupData, q3, dfsPoly]
      inTable := h.lookups }

theorem lookupParts_pos (hlim : LookupsWithinLimit c mqc) (hne : c.lookups.gates ≠ [])
    (hopt : 0 < c.lookups.optionCount) : ∀ p ∈ c.lookups.parts mqc, p ≠ 0 := by
  have hne0 : c.lookups.gates.length ≠ 0 := fun h => hne (List.length_eq_zero_iff.1 h)
  by_cases hm : mqc = 0
  · unfold LookupSystem.parts lookupParts
    rw [if_pos hm, if_neg hne0]
    unfold LookupSystem.optionCount at hopt
    simp only [List.mem_singleton]
    rintro p rfl
    omega
  · rw [LookupSystem.parts, C29_parts_nonempty_iff _ _ _ _ hm, ← Circuit.lookupCosts_eq]
    have hc : c.lookupCosts ≠ [] := by
      unfold Circuit.lookupCosts
      intro h
      have := (List.append_eq_nil_iff.1 h).2
      simp only [List.replicate_eq_nil_iff] at this
      omega
    obtain ⟨x, xs, hx⟩ := List.exists_cons_of_ne_nil hc
    rw [hx]
    refine ⟨x, rfl, ?_⟩
    rcases hlim with h | h | h
    · exact absurd h hm
    · exact absurd h hne
    · exact h x (by rw [hx]; simp)

/-- What a prover needs of its challenges to get through the permutation and the lookup argument. -/
theorem prover_bad_sets (hS : PlaceholderSetup L A n fuel d c order t)
    (hperm : permPreprocess L n fuel d c.copies order delta mqc = some pre)
    (hlim : LookupsWithinLimit c mqc) (m : Nat)
    (hlk : c.lookups.gates ≠ [] → LookupsSatisfied t c.lookups d.usableRows m) :
    ∃ (badP : F → Finset F) (badT : Finset F) (badL : F → F → Finset F),
      (∀ beta, (badP beta).card ≤ order.length * 2 ^ n) ∧
      badT.card ≤ (c.lookups.optionCount * d.usableRows) * (c.lookups.optionCount * d.usableRows + 1) * m ∧
      (∀ theta beta, (badL theta beta).card ≤
        (c.lookups.inputCount + c.lookups.optionCount) * d.usableRows) ∧
      ∀ {S H Com Pr Data Obj : Type} (C : CommScheme F S Com Pr Data Obj) (T : PlonkTranscript S F H Com)
        (s0 : S × Obj) (gi : List Nat), permutedIndices d order = some gi →
        ChallengesAvoid C T n c t d.usableRows pre.parts s0 badP badT badL →
        (c.copies ≠ [] →
          ∀ vcom, (C.run s0.2 (variableCalls t)).bind (C.root · VARIABLE_BATCH) = some vcom →
          ∃ r, permProve T.challenge L n pre (fun i => (t.column i).map L.coefficients)
            gi (T.absorb vcom s0.1) = some r) ∧
        (c.lookups.gates ≠ [] →
          ∀ vcom, (C.run s0.2 (variableCalls t)).bind (C.root · VARIABLE_BATCH) = some vcom →
          Sortable (compressedInputs t c.lookups n (lookupTheta T c pre.parts vcom s0.1))
            (compressedValues t c.lookups n d.usableRows (lookupTheta T c pre.parts vcom s0.1)) (2 ^ n)
            d.usableRows) ∧
        (c.lookups.gates ≠ [] →
          ∀ vcom, (C.run s0.2 (variableCalls t)).bind (C.root · VARIABLE_BATCH) = some vcom →
          ∀ obj, (∃ perm : List (FriPoly F), C.run s0.2
            (variableCalls t ++ perm.map fun p => .append PERMUTATION_BATCH [p]) = some obj) →
          ∀ sorted, sortPolynomials (compressedInputs t c.lookups n (lookupTheta T c pre.parts vcom s0.1))
            (compressedValues t c.lookups n d.usableRows (lookupTheta T c pre.parts vcom s0.1)) (2 ^ n)
              d.usableRows = some sorted →
          ∀ lcom, (C.run obj (sortedOps sorted)).bind (C.root · LOOKUP_BATCH) = some lcom →
          ∃ r, lookupProve T.challenge (fun (com : Option Com) st => com.elim st (T.absorb · st))
            (fun sorted => (C.run obj (sortedOps sorted)).bind (C.root · LOOKUP_BATCH)) L n t c.lookups
            (lookupData pre) (lookupStart T c pre.parts vcom s0.1) = some r) := by
  classical
  obtain ⟨-, -, -, -, -, -, -, -, -, -, s11, s12, -⟩ := permPreprocess_shape hS.lib hS.small hperm
  have hus : (lookupData pre).usable = d.usableRows := s11
  -- the permutation argument
  obtain ⟨badP, p1, p2⟩ : ∃ badP : F → Finset F, (∀ beta, (badP beta).card ≤ order.length * 2 ^ n) ∧
      ∀ gi, permutedIndices d order = some gi → c.copies ≠ [] → ∀ beta, ∀ gamma ∉ badP beta,
      ∀ (S : Type) (ch : S → F × S) (st : S), (ch st).1 = beta → (ch (ch st).2).1 = gamma →
        ∃ r, permProve ch L n pre (fun i => (t.column i).map L.coefficients) gi st = some r := by
    by_cases h : ∃ gi, permutedIndices d order = some gi ∧ c.copies ≠ []
    · obtain ⟨gi, hgi, hne⟩ := h
      have hps := hS.permSetup_of hperm hgi
      have hcol : ∀ i ∈ gi, ∃ p, (fun i => (t.column i).map L.coefficients) i = some p := by
        intro i hi
        obtain ⟨k, hk, rfl⟩ := List.getElem_of_mem hi
        have hf := forall₂_of_mapM _ _ _ hgi
        have hk' : k < order.length := hf.length_eq ▸ hk
        have hvi := hf.get hk' hk
        simp only [List.get_eq_getElem] at hvi
        have hv := (hS.members _).1 (List.getElem_mem hk')
        obtain ⟨cp, hcp, v, hv1, hv2⟩ := (mem_permutedVars _ _).1 hv
        have hhas : d.HasColumn order[k] := by
          rw [hv2, hasColumn_erase]
          exact (hS.copies cp hcp v hv1).1
        obtain ⟨-, col, hcol, -⟩ := columnPoly_column (L := L) hS.fits hhas hvi
        exact ⟨_, by simp only [hcol]; rfl⟩
      choose badP hb1 hb2 using fun beta => C31_prover_succeeds hps hne _ hcol beta
      have hl : gi.length = order.length := length_mapM _ _ _ hgi
      refine ⟨badP, fun b => hl ▸ hb1 b, ?_⟩
      intro gi' hgi' _ beta gamma hg
      rw [hgi, Option.some_inj] at hgi'
      subst hgi'
      exact hb2 beta gamma hg
    · exact ⟨fun _ => ∅, by simp, fun gi hgi hne => absurd ⟨gi, hgi, hne⟩ h⟩
  -- sorting
  obtain ⟨badT, t1, t2⟩ : ∃ badT : Finset F, badT.card ≤ (c.lookups.optionCount * d.usableRows) *
      (c.lookups.optionCount * d.usableRows + 1) * m ∧ (c.lookups.gates ≠ [] → ∀ theta ∉ badT,
        Sortable (compressedInputs t c.lookups n theta)
          (compressedValues t c.lookups n d.usableRows theta) (2 ^ n) d.usableRows) := by
    by_cases h : c.lookups.gates = []
    · exact ⟨∅, by simp, fun h' => absurd h h'⟩
    · have hl := hlk h
      have hset := hS.lookupSetup_of hperm h
      obtain ⟨bad, b1, b2⟩ := C35_sortable hset hl.wellFormed (by rw [hus]; exact hl.tags)
        (by rw [hus]; exact hl.laidOut) (by rw [hus]; exact hl.hold) m hl.columns
      rw [hus] at b1 b2
      exact ⟨bad, b1, fun _ => b2⟩
  -- the running product of the lookup argument
  have hex : ∀ theta beta : F, ∃ bad : Finset F,
      bad.card ≤ (c.lookups.inputCount + c.lookups.optionCount) * d.usableRows ∧
      (c.lookups.gates ≠ [] → Sortable (compressedInputs t c.lookups n theta)
          (compressedValues t c.lookups n d.usableRows theta) (2 ^ n) d.usableRows → beta ≠ -1 →
        ∃ sorted, sortPolynomials (compressedInputs t c.lookups n theta)
          (compressedValues t c.lookups n d.usableRows theta) (2 ^ n) d.usableRows = some sorted ∧
          ∀ gamma ∉ bad, ∀ (S Com : Type) (ch : S → F × S) (absorb : Com → S → S)
            (commit : List (List F) → Com) (st : S),
            (ch st).1 = theta → (ch (absorb (commit sorted) (ch st).2)).1 = beta →
            (ch (ch (absorb (commit sorted) (ch st).2)).2).1 = gamma →
            ∃ r, lookupProve ch absorb commit L n t c.lookups (lookupData pre) st = some r) := by
    intro theta beta
    by_cases h : c.lookups.gates ≠ [] ∧ Sortable (compressedInputs t c.lookups n theta)
          (compressedValues t c.lookups n d.usableRows theta) (2 ^ n) d.usableRows ∧ beta ≠ -1
    · obtain ⟨h1, h2, h3⟩ := h
      have hset := hS.lookupSetup_of hperm h1
      have hparts := lookupParts_pos hlim h1 (hlk h1).laidOut.some
      obtain ⟨sorted, e1, bad, e2, e3⟩ := C35_prover_succeeds hset h1
        (by rw [show (lookupData pre).mqc = mqc from s12]; exact hparts) theta (by rw [hus]; exact h2) beta h3
      rw [hus] at e1 e2
      exact ⟨bad, e2, fun _ _ _ => ⟨sorted, e1, e3⟩⟩
    · exact ⟨∅, by simp, fun a b e => absurd ⟨a, b, e⟩ h⟩
  choose badL l1 l2 using hex
  refine ⟨badP, badT, badL, p1, t1, l1, ?_⟩
  intro S H Com Pr Data Obj C T s0 gi hgi hav
  have hT : c.lookups.gates ≠ [] →
      ∀ vcom, (C.run s0.2 (variableCalls t)).bind (C.root · VARIABLE_BATCH) = some vcom →
      Sortable (compressedInputs t c.lookups n (lookupTheta T c pre.parts vcom s0.1))
        (compressedValues t c.lookups n d.usableRows (lookupTheta T c pre.parts vcom s0.1)) (2 ^ n)
        d.usableRows := fun h vcom hv => t2 h _ (hav.theta h vcom hv)
  refine ⟨fun h vcom hv => p2 gi hgi h _ _ (hav.perm h vcom hv) S T.challenge _ rfl rfl, hT, ?_⟩
  intro h vcom hv obj hobj sorted hsorted lcom hlcom
  obtain ⟨b1, b2⟩ := hav.lookup h vcom hv _ rfl sorted hsorted obj lcom hlcom hobj _ rfl
  obtain ⟨sorted', e1, e2⟩ := l2 _ _ h (hT h vcom hv) b1
  rw [hsorted, Option.some_inj] at e1
  subst e1
  refine e2 _ b2 S (Option Com) T.challenge _ _ _ rfl ?_ ?_
  · simp only [hlcom, Option.elim]
  · simp only [hlcom, Option.elim]

/-- C65: the preprocessing succeeds. The limit on the number of chunks has to be above the degree of the
gates, and there has to be a constraint that is not constant. -/
theorem C65_preprocessor_succeeds (hS : PlaceholderSetup L A n fuel d c order t) (hpos : c.maxDegree ≠ 0)
    (hmqc : mqc = 0 ∨ mqc > c.maxDegree) (delta : F) :
    ∃ pre, permPreprocess L n fuel d c.copies order delta mqc = some pre ∧
      ∀ {S H Com Pr Data Obj : Type} (C : CommScheme F S Com Pr Data Obj) (T : PlonkTranscript S F H Com)
        (hash : H) {Has : FriPoly F → List F → Prop} {maxLen : Nat}, C.TotalSetup Has maxLen → HasLaws L n Has →
        2 ^ n ≤ maxLen → ∃ pd o0, pd.perm = pre ∧
          placeholderPreprocess C T L n fuel d c order delta mqc hash t C.new = some (pd, o0) := by
  have hu : d.usableRows ≤ 2 ^ 32 := by
    have h1 := hS.usable
    have h2 : (2 : Nat) ^ n ≤ 2 ^ 32 := Nat.pow_le_pow_right (by norm_num) hS.rows32
    rw [hS.rows] at h1
    omega
  obtain ⟨gi, hgi⟩ : ∃ gi, permutedIndices d order = some gi := by
    refine ⟨_, mapM_eq_some_map _ (fun v => (d.globalIndex v).getD 0) _ fun v hv => ?_⟩
    obtain ⟨cp, hcp, w, hw1, hw2⟩ := (mem_permutedVars _ _).1 ((hS.members v).1 hv)
    obtain ⟨i, hi, -⟩ := globalIndex_lt d w (hS.copies cp hcp w hw1).1 (hS.copies cp hcp w hw1).2.1
    have : d.globalIndex v = some i := by rw [hw2]; exact hi
    rw [this]; rfl
  obtain ⟨keys, hkeys, -⟩ := copyKeys hS.copies hu
  obtain ⟨rep, -, -, hrep, -⟩ := CycleRep.build_spec (gridKeys d) keys fuel (by
    simp only [Nat.card_eq_fintype_card, Fintype.card_prod, Fintype.card_fin]
    have := hS.fuel
    omega)
  obtain ⟨parts, hparts⟩ : ∃ parts, permutationParts order.length mqc = some parts := by
    unfold permutationParts
    split_ifs with h1 h2 h3 h4
    · exact ⟨_, rfl⟩
    · exact ⟨_, rfl⟩
    · omega
    · exact ⟨_, rfl⟩
    · exact ⟨_, rfl⟩
  have hcop : preprocessCopies fuel d c.copies = some rep := by
    unfold preprocessCopies
    rw [hkeys]
    exact hrep
  obtain ⟨pre, hpre⟩ : ∃ pre, permPreprocess L n fuel d c.copies order delta mqc = some pre := by
    unfold permPreprocess
    rw [hcop, hgi, hparts]
    exact ⟨_, rfl⟩
  refine ⟨pre, hpre, ?_⟩
  intro S H Com Pr Data Obj C T hash Has maxLen hC hH hmax
  obtain ⟨s1, s2, s3, s4, -, -, -, s8, s9, -, -, -, -⟩ := permPreprocess_shape hS.lib hS.small hpre
  have hlen : HonestLengths n c pre t [] [] [] [] :=
    ⟨s3, s4, s8, s9, hS.fits.rect, by simp, by simp, by simp, by simp, by simp, by simp⟩
  have hcalls := honest_calls hS.lib hS.small hH hmax hlen (pts := []) (by simp) (by simp) (by simp)
  obtain ⟨o0, h1, h2, h3⟩ := hC (fixedOps L n pre t) hcalls.preOps
    ((inOrder_append _ _ _).1 hcalls.order).1 (by
      intro k hk f hf
      have hs := honest_session hS.lib hS.small hH hmax (okPoints := fun _ => True) hlen (pts := []) (by simp)
        (fun _ _ _ => trivial)
      have h1 := hs.polys k
      have hf' : f ∈ lpcAppended k (fixedOps L n pre t ++ honestOps L n c t [] [] [] []) := by
        rw [lpcAppended_append]; exact List.mem_append_left _ hf
      obtain ⟨i, hi, rfl⟩ := List.getElem_of_mem hf'
      have hi' : i < (honestPolys L pre t [] [] [] [] k).length := h1.length_eq ▸ hi
      exact ⟨_, (List.forall₂_iff_get.1 h1).2 i hi hi', hs.degrees k _ (List.getElem_mem hi')⟩)
    (by simp [fixedOps])
  obtain ⟨com, hcom⟩ := h2 FIXED_BATCH (by simp [fixedOps])
  obtain ⟨data, hdata⟩ := h3 (T.key hash com)
  obtain ⟨rots, hrots⟩ : ∃ rots, columnsRotations d c = some rots := by
    have hvar : ∀ v ∈ c.usedVars, t.HasVar v := by
      intro v hv
      unfold Circuit.usedVars at hv
      rcases List.mem_append.1 hv with hv | hv
      · obtain ⟨g, hg, hv⟩ := List.mem_flatMap.1 hv
        obtain ⟨e, he, hv⟩ := List.mem_flatMap.1 hv
        exact (hS.gates g hg).2 e he v hv
      · obtain ⟨g, hg, hv⟩ := List.mem_flatMap.1 hv
        obtain ⟨k, hk, hv⟩ := List.mem_flatMap.1 hv
        obtain ⟨e, he, hv⟩ := List.mem_flatMap.1 hv
        exact (hS.lookups.1 g hg).2 k hk e he v hv
    refine columnsRotations_defined d c ?_ ?_
    · intro v hv hty
      obtain ⟨cols, h1, -⟩ := hvar v hv
      rw [hty] at h1
      simp [PlonkTable.columnsOf] at h1
    · intro i r hir
      rcases hir with ⟨v, hv, hvi, -⟩ | ⟨-, -, tab, htab, h⟩
      · exact (columnPoly_column (L := L) hS.fits (PlaceholderSetup.hasColumn hS.fits (hvar v hv)) hvi).1
      · have h1 := (hS.lookups.2 tab htab).1
        have h2 := hS.fits.selector
        have h3 := hS.fits.constant
        unfold TableDesc.width
        rcases h with rfl | ⟨o, ho, v, hv, rfl⟩
        · omega
        · have := ((hS.lookups.2 tab htab).2 o ho).2 v hv
          omega
  unfold placeholderPreprocess
  rw [if_neg hpos, hpre, hgi]
  simp only [Option.bind_eq_bind, Option.bind_some]
  rw [if_pos hmqc, h1]
  simp only [Option.bind_some, hcom, hrots, hdata]
  exact ⟨_, _, rfl, rfl⟩

/-- C65: a proof is produced. The preprocessing, the degrees and the limit on the number of chunks are as they
should be; then there are small sets of bad challenges, such that with every commitment scheme that accepts
the calls of a prover, and every transcript, the prover returns a proof if it draws none of them, and the
opening challenge is fine for the scheme. -/
theorem C65_prover_succeeds (hS : PlaceholderSetup L A n fuel d c order t)
    (hperm : permPreprocess L n fuel d c.copies order delta mqc = some pre) (hdeg : DegreesFit c)
    (hlim : LookupsWithinLimit c mqc) (m : Nat)
    (hlk : c.lookups.gates ≠ [] → LookupsSatisfied t c.lookups d.usableRows m) :
    ∃ (badP : F → Finset F) (badT : Finset F) (badL : F → F → Finset F),
      (∀ beta, (badP beta).card ≤ order.length * 2 ^ n) ∧
      badT.card ≤ (c.lookups.optionCount * d.usableRows) * (c.lookups.optionCount * d.usableRows + 1) * m ∧
      (∀ theta beta, (badL theta beta).card ≤
        (c.lookups.inputCount + c.lookups.optionCount) * d.usableRows) ∧
      ∀ {S H Com Pr Data Obj : Type} (C : CommScheme F S Com Pr Data Obj) (T : PlonkTranscript S F H Com)
        (hash : H) (pd : PublicData F H Com Data) (o0 : Obj) {Has : FriPoly F → List F → Prop} {maxLen : Nat}
        {okPoints : List F → Prop} {okSetup : S → Prop},
        C.Total Has maxLen → C.Opens Has maxLen okPoints okSetup → HasLaws L n Has → 2 ^ n ≤ maxLen →
        placeholderPreprocess C T L n fuel d c order delta mqc hash t C.new = some (pd, o0) →
        okSetup (T.key pd.common.hash pd.common.fixedCommitment) →
        ChallengesAvoid C T n c t d.usableRows pre.parts
          (C.setup o0 (T.key pd.common.hash pd.common.fixedCommitment) pd.common.schemeData)
          badP badT badL →
        ∃ y, openingChallenge C T L n d c order pd t o0 = some y ∧
          ((∀ pts, verifierPoints L n d c pd.common y = some pts → ∀ k i, okPoints (lpcRequested k i pts)) →
            ∃ proof, placeholderProve C T L n d c order pd t o0 = some proof ∧ proof.challenge = y) := by
  obtain ⟨badP, badT, badL, b1, b2, b3, b4⟩ := prover_bad_sets hS hperm hlim m hlk
  refine ⟨badP, badT, badL, b1, b2, b3, ?_⟩
  intro S H Com Pr Data Obj C T hash pd o0 Has maxLen okPoints okSetup hC hO hH hmax hpre hset hav
  have hp := preprocess_facts hpre
  have hpd : pd.perm = pre := by
    have := hp.perm
    rw [hperm, Option.some_inj] at this
    exact this.symm
  subst hpd
  obtain ⟨hP, hT, hLk⟩ := b4 C T _ _ hp.indices hav
  obtain ⟨perm, sorted, vl, chunks, pts, y, o, st, coms, hl, hpts, hkinds, hrun, hw, hprove⟩ :=
    prover_reaches_opening hC hH hmax hS hp hdeg hlim _ rfl hP hT hLk
  refine ⟨y, ?_, ?_⟩
  · unfold openingChallenge
    rw [hw]
    rfl
  · intro hok
    have hsess := honest_session hS.lib hS.small hH hmax hl hkinds (fun k i _ => hok pts hpts k i)
    obtain ⟨e, he⟩ := Option.isSome_iff_exists.1 (hO _ _ _ _ _ hsess o0 o _ st _ hp.run hp.data hset hrun)
    exact ⟨_, by rw [hprove, he]; rfl, rfl⟩

/-- The first commitment in a proof is the one the prover computes from the columns. -/
theorem prove_variable_commitment {S H Com Pr Data Obj : Type} {C : CommScheme F S Com Pr Data Obj}
    {T : PlonkTranscript S F H Com} {pd : PublicData F H Com Data} {o0 : Obj} {proof : PlaceholderProof F Com Pr}
    (h : placeholderProve C T L n d c order pd t o0 = some proof) (vcom : Com)
    (hv : proof.commitments.find VARIABLE_BATCH = some vcom) :
    (C.run (C.setup o0 (T.key pd.common.hash pd.common.fixedCommitment) pd.common.schemeData).2
      (variableCalls t)).bind (C.root · VARIABLE_BATCH) = some vcom := by
  unfold placeholderProve at h
  obtain ⟨o1, h1, h⟩ := Option.bind_eq_some_iff.1 h
  obtain ⟨vc, h2, h⟩ := Option.bind_eq_some_iff.1 h
  obtain ⟨⟨fp, o2, st1⟩, -, h⟩ := Option.bind_eq_some_iff.1 h
  obtain ⟨⟨fl, lcom, o3, st2⟩, -, h⟩ := Option.bind_eq_some_iff.1 h
  obtain ⟨⟨pcom, o4, st3⟩, -, h⟩ := Option.bind_eq_some_iff.1 h
  obtain ⟨⟨fg, st4⟩, -, h⟩ := Option.bind_eq_some_iff.1 h
  obtain ⟨chunks, -, h⟩ := Option.bind_eq_some_iff.1 h
  obtain ⟨o5, -, h⟩ := Option.bind_eq_some_iff.1 h
  obtain ⟨qcom, -, h⟩ := Option.bind_eq_some_iff.1 h
  obtain ⟨pts, -, h⟩ := Option.bind_eq_some_iff.1 h
  obtain ⟨o6, -, h⟩ := Option.bind_eq_some_iff.1 h
  obtain ⟨⟨ev, st6⟩, -, h⟩ := Option.bind_eq_some_iff.1 h
  rw [Option.some_inj] at h
  subst h
  simp only [OMap.find_insert, find_putCommitment] at hv
  have hv : vc = vcom := by simpa [OMap.find] using hv
  subst hv
  unfold variableCalls
  rw [h1]
  exact h2

/-- C65, completeness of the proof system: on a table that satisfies the circuit, the preprocessor succeeds,
the prover produces a proof and the verifier accepts it, unless one of the challenges is one of the bad
values. -/
theorem C65_complete (hS : PlaceholderSetup L A n fuel d c order t) (hpos : c.maxDegree ≠ 0)
    (hmqc : mqc = 0 ∨ mqc > c.maxDegree) (hdeg : DegreesFit c)
    (hlim : LookupsWithinLimit c mqc) (hcopies : CopiesHold d c.copies t.cellAt)
    (hgates : GatesHold t c.gates d.usableRows) (m : Nat)
    (hlk : c.lookups.gates ≠ [] → LookupsSatisfied t c.lookups d.usableRows m) (delta : F) :
    ∃ (parts : Nat) (badP : F → Finset F) (badT : Finset F) (badL : F → F → Finset F),
      (∀ beta, (badP beta).card ≤ order.length * 2 ^ n) ∧
      badT.card ≤ (c.lookups.optionCount * d.usableRows) * (c.lookups.optionCount * d.usableRows + 1) * m ∧
      (∀ theta beta, (badL theta beta).card ≤
        (c.lookups.inputCount + c.lookups.optionCount) * d.usableRows) ∧
      ∀ {S H Com Pr Data Obj : Type} (C : CommScheme F S Com Pr Data Obj) (T : PlonkTranscript S F H Com)
        (hash : H) {Has : FriPoly F → List F → Prop} {maxLen : Nat}
        {okPoints : List F → Prop} {okSetup : S → Prop},
        C.TotalSetup Has maxLen → C.Total Has maxLen → C.Opens Has maxLen okPoints okSetup →
        C.Complete Has maxLen okPoints okSetup → C.RootLaws → HasLaws L n Has → 2 ^ n ≤ maxLen →
        ∃ pd o0, placeholderPreprocess C T L n fuel d c order delta mqc hash t C.new = some (pd, o0) ∧
          (okSetup (T.key pd.common.hash pd.common.fixedCommitment) →
          ChallengesAvoid C T n c t d.usableRows parts
            (C.setup o0 (T.key pd.common.hash pd.common.fixedCommitment) pd.common.schemeData)
            badP badT badL →
          ∃ y, openingChallenge C T L n d c order pd t o0 = some y ∧
            ((∀ pts, verifierPoints L n d c pd.common y = some pts → ∀ k i, okPoints (lpcRequested k i pts)) →
              ∃ proof, placeholderProve C T L n d c order pd t o0 = some proof ∧
                ∀ asserts, placeholderVerify C T L n asserts d c pd.common proof o0 = some true ∧
                  ((∀ k < 2 ^ n, y ≠ L.root n ^ k) → ∀ publicInput, PublicInputOf d c n t publicInput →
                    placeholderVerifyPublic C T L n asserts d c pd.common proof o0 publicInput =
                      some true))) := by
  obtain ⟨pre, hperm, hpp⟩ := C65_preprocessor_succeeds hS hpos hmqc delta
  obtain ⟨badP, badT, badL, b1, b2, b3, b4⟩ := prover_bad_sets hS hperm hlim m hlk
  refine ⟨pre.parts, badP, badT, badL, b1, b2, b3, ?_⟩
  intro S H Com Pr Data Obj C T hash Has maxLen okPoints okSetup hC0 hC hO hCo hR hH hmax
  obtain ⟨pd, o0, hpd, hpre⟩ := hpp C T hash hC0 hH hmax
  subst hpd
  refine ⟨pd, o0, hpre, fun hset hav => ?_⟩
  have hp := preprocess_facts hpre
  obtain ⟨hP, hT, hLk⟩ := b4 C T _ _ hp.indices hav
  obtain ⟨perm, sorted, vl, chunks, pts, y, o, st, coms, hl, hpts, hkinds, hrun, hw, hprove⟩ :=
    prover_reaches_opening hC hH hmax hS hp hdeg hlim _ rfl hP hT hLk
  refine ⟨y, ?_, ?_⟩
  · unfold openingChallenge
    rw [hw]
    rfl
  · intro hok
    have hsess := honest_session hS.lib hS.small hH hmax hl hkinds (fun k i _ => hok pts hpts k i)
    obtain ⟨e, he⟩ := Option.isSome_iff_exists.1 (hO _ _ _ _ _ hsess o0 o _ st _ hp.run hp.data hset hrun)
    rw [he] at hprove
    refine ⟨_, hprove, fun asserts => ?_⟩
    have hsort : ∀ vcom theta, _ → theta = lookupTheta T c pd.perm.parts vcom _ → c.lookups.gates ≠ [] →
        Sortable (compressedInputs t c.lookups n theta)
          (compressedValues t c.lookups n d.usableRows theta) (2 ^ n) d.usableRows :=
      fun vcom theta hv htheta hne => by
        rw [htheta]
        exact hT hne vcom (prove_variable_commitment hprove vcom hv)
    exact ⟨C37_honest_accepted hCo hR hH hmax hS hpre hprove hset hok hsort hcopies hgates asserts,
      fun hy publicInput hpi => C38_honest_accepted hCo hR hH hmax hS hpre hprove hset hok hsort hcopies hgates
        hpi.sizes publicInput hpi.fits hpi.given hy asserts⟩

/-- C65, completeness with LPC as the commitment scheme: the parameters of FRI are as its constructor makes
them, the challenges of FRI are not zero and those of the openings are outside of the first domain. -/
theorem C65_lpc_complete [Fintype F] (hS : PlaceholderSetup L A n fuel d c order t) (hpos : c.maxDegree ≠ 0)
    (hmqc : mqc = 0 ∨ mqc > c.maxDegree) (hdeg : DegreesFit c)
    (hlim : LookupsWithinLimit c mqc) (hcopies : CopiesHold d c.copies t.cellAt)
    (hgates : GatesHold t c.gates d.usableRows) (m : Nat)
    (hlk : c.lookups.gates ≠ [] → LookupsSatisfied t c.lookups d.usableRows m) (delta : F) :
    ∃ (parts : Nat) (badP : F → Finset F) (badT : Finset F) (badL : F → F → Finset F),
      (∀ beta, (badP beta).card ≤ order.length * 2 ^ n) ∧
      badT.card ≤ (c.lookups.optionCount * d.usableRows) * (c.lookups.optionCount * d.usableRows + 1) * m ∧
      (∀ theta beta, (badL theta beta).card ≤
        (c.lookups.inputCount + c.lookups.optionCount) * d.usableRows) ∧
      ∀ {S H Tree Root Path : Type} [DecidableEq Root] (M : MerkleLib F Tree Root Path)
        (FT : FriTranscript S F Root) (T : PlonkTranscript S F H Root) (hash : H) (prm : FriParams F)
        (N D : Nat) (dfs : Bool) (pfuel nonce : Nat), M.Lawful →
        LpcParams L prm A N D → 2 ^ n ≤ prm.maxDegree + 1 → checkStepList prm.stepList prm.r = true →
        Fintype.card F = prm.modulus → 2 ^ N ∣ prm.modulus - 1 → (∀ st, (FT.challenge st).2 ≠ 0) →
        (prm.useGrinding = true → ∀ st,
          (powGenerate FT.toIntTranscript 32 prm.grindingParameter pfuel st nonce).isSome) →
        ∃ pd o0, placeholderPreprocess (lpcComm L M FT prm dfs pfuel nonce) T L n fuel d c order delta mqc hash
            t LpcScheme.new = some (pd, o0) ∧
          ((∀ k, (L.domain N).elem k ≠ (FT.challenge (T.key pd.common.hash pd.common.fixedCommitment)).2) →
          ChallengesAvoid (lpcComm L M FT prm dfs pfuel nonce) T n c t d.usableRows parts
            ((lpcComm L M FT prm dfs pfuel nonce).setup o0 (T.key pd.common.hash pd.common.fixedCommitment)
              pd.common.schemeData) badP badT badL →
          ∃ y, openingChallenge (lpcComm L M FT prm dfs pfuel nonce) T L n d c order pd t o0 = some y ∧
            ((∀ k, (L.domain N).elem k ≠ y) →
              ∃ proof, placeholderProve (lpcComm L M FT prm dfs pfuel nonce) T L n d c order pd t o0 =
                  some proof ∧
                ∀ asserts, placeholderVerify (lpcComm L M FT prm dfs pfuel nonce) T L n asserts d c pd.common
                    proof o0 = some true ∧
                  ∀ publicInput, PublicInputOf d c n t publicInput →
                    placeholderVerifyPublic (lpcComm L M FT prm dfs pfuel nonce) T L n asserts d c pd.common
                      proof o0 publicInput = some true)) := by
  obtain ⟨parts, badP, badT, badL, b1, b2, b3, b4⟩ :=
    C65_complete hS hpos hmqc hdeg hlim hcopies hgates m hlk delta
  refine ⟨parts, badP, badT, badL, b1, b2, b3, ?_⟩
  intro S H Tree Root Path _ M FT T hash prm N D dfs pfuel nonce hM hprm hmax hsteps hcard hdvd hch hgrind
  have hnN : n ≤ N := by
    rw [hprm.degree.1] at hmax
    exact ((Nat.pow_le_pow_iff_right (by norm_num)).1 hmax).trans hprm.degree.2
  obtain ⟨s0, hs0, hs1⟩ := first_step hprm hsteps
  obtain ⟨pd, o0, hpre, h⟩ := b4 (lpcComm L M FT prm dfs pfuel nonce) T hash
    (lpcComm_totalSetup hS.lib M FT hprm hs0 hs1 dfs pfuel nonce)
    (lpcComm_total hS.lib M FT hprm hs0 hs1 dfs pfuel nonce)
    (lpcComm_opens hS.lib M hM FT hprm hsteps hcard hdvd hch dfs pfuel nonce hgrind)
    (lpcComm_complete hS.lib M hM FT hprm dfs pfuel nonce) (lpcComm_rootLaws M FT prm dfs pfuel nonce)
    (hasLaws_lpc N hnN) hmax
  refine ⟨pd, o0, hpre, fun hset hav => ?_⟩
  obtain ⟨y, hy, h⟩ := h hset hav
  refine ⟨y, hy, fun hout => ?_⟩
  obtain ⟨proof, h1, h2⟩ := h fun pts hpts k i x hx k' => by
    obtain ⟨r, rfl⟩ := requested_rotation (columnsRotations_spec d c _ (preprocess_facts hpre).rotations).1 hpts
      k i x hx
    exact outside_of_challenge hS.lib hnN hprm.adicity hout r k'
  refine ⟨proof, h1, fun asserts => ⟨(h2 asserts).1, (h2 asserts).2 fun k _ hk => ?_⟩⟩
  refine outside_of_challenge hS.lib hnN hprm.adicity hout (-k) 0 ?_
  rw [hk, ← zpow_natCast, ← zpow_add₀ (root_ne_zero hS.lib n hS.small), add_neg_cancel, zpow_zero]
  show L.root N ^ 0 = 1
  rw [pow_zero]

end Crypto3Zk
