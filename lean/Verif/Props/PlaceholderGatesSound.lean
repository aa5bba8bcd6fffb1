import Verif.Lemmas.PartsRun
import Verif.Lemmas.PlaceholderSoundParts

/-!
# C66: the gates, for any number of parts

With the permutation argument or the lookup argument in several parts, an accepted proof says nothing about the copy
constraints or the lookups (`Props/PlaceholderPartsForgery`, `Props/PlaceholderLookupPartsForgery`). It still says that
the gates hold.
-/

set_option linter.unusedSectionVars false

namespace Crypto3Zk

open Polynomial

variable {F : Type} [Field F] [DecidableEq F]
variable {L : FftLib F} {A n fuel : Nat} {d : TableDesc} {c : Circuit F} {order : List PlonkVar}
  {t : PlonkTable F} {delta : F} {mqc : Nat} {pre : PermData F}

/-- **C66** by parts: whatever the numbers of parts of the permutation and lookup arguments (no part of the latter
empty), if the verifier accepts, the table to which the prover is committed satisfies the gates; it satisfies the copy
constraints if the permutation argument has one part, and the lookups if the lookup argument has one part. Excepted are
bad challenges: the sets of bad values are small and are fixed, each for what was fixed before the challenge is drawn,
before the commitment scheme, the transcript and the prover. -/
theorem C66_sound_by_parts_partial (hS : PlaceholderSetup L A n fuel d c order t)
    (hperm : permPreprocess L n fuel d c.copies order delta mqc = some pre) (hdeg : DegreesFit c)
    {dg : Nat} (hdg : ∀ g ∈ c.gates, ∀ e ∈ g.constraints, e.degree ≤ dg)
    (hne : c.lookups.gates ≠ [] → ∀ p ∈ c.lookups.parts mqc, p ≠ 0) (w : Nat) :
    ∃ B : PartsBad F, B.Small c n d.usableRows order.length dg w ∧
      ∀ {S H Com Pr Data Obj : Type} (C : CommScheme F S Com Pr Data Obj) (T : PlonkTranscript S F H Com)
        (hash : H) (obj o0 : Obj) (pd : PublicData F H Com Data) (t0 : PlonkTable F),
        placeholderPreprocess C T L n fuel d c order delta mqc hash t0 obj = some (pd, o0) →
        t0.constants = t.constants → t0.selectors = t.selectors →
        ∀ (proof : PlaceholderProof F Com Pr) (m : PartsMessages F) (chunks : List (List F)),
          m.Sized n c mqc pre.parts → (∀ ch ∈ chunks, ch.length ≤ 2 ^ n) →
          OpenedParts L n d c pd.common pre t m chunks proof →
          ∀ (vcom lcom pcom qcom : Com), proof.commitments.find VARIABLE_BATCH = some vcom →
            (c.lookups.gates ≠ [] → proof.commitments.find LOOKUP_BATCH = some lcom) →
            (c.copies ≠ [] ∨ c.lookups.gates ≠ [] → proof.commitments.find PERMUTATION_BATCH = some pcom) →
            proof.commitments.find QUOTIENT_BATCH = some qcom →
            ∀ x : PartsChallenges F, x = readPartsChallenges T c pre.parts (c.lookups.parts mqc).length m.sorted.length
                vcom lcom pcom qcom
                (C.setup o0 (T.key pd.common.hash pd.common.fixedCommitment) pd.common.schemeData).1 →
              B.GatesAvoided m chunks x →
              placeholderVerify C T L n true d c pd.common proof o0 = some true →
              GatesHold t c.gates d.usableRows ∧
              (c.copies ≠ [] → pre.parts = 1 → DeltaSeparates n order.length delta → B.CopiesAvoided x.early →
                CopiesHold d c.copies t.cellAt) ∧
              (c.lookups.gates ≠ [] → (c.lookups.parts mqc).length = 1 →
                LookupsCheckable t c.lookups d.usableRows w → B.LookupsAvoided m.sorted x.early →
                LookupsHold t c.lookups d.usableRows) := by
  classical
  have hL := hS.lib
  have hn := hS.small
  obtain ⟨s1, s2, s3, s4, q1, q2, q3, s8, s9, s10, s11, s12, s13⟩ := permPreprocess_shape hL hn hperm
  obtain ⟨gi, hgi⟩ := hS.indices
  have hgl : gi.length = order.length := length_mapM _ _ _ hgi
  obtain ⟨cols, hcols, hcl, hcb⟩ := hS.permutedCols hgi
  -- the permutation argument
  have hP : ∀ (m : PartsMessages F) (e : EarlyChallenges F), ∃ f0 f1 f2 : F[X], f0.natDegree ≤ 2 * (2 ^ n - 1) ∧
      f1.natDegree ≤ (order.length + 2) * (2 ^ n - 1) ∧ f2.natDegree ≤ 3 * (2 ^ n - 1) ∧
      (c.copies = [] → f0 = 0 ∧ f1 = 0 ∧ f2 = 0) ∧
      (c.copies ≠ [] → m.Sized n c mqc pre.parts → e.parts.length = pre.parts - 1 →
        ∀ (S : Type) (ch : S → F × S) (st : S) (y : F), (ch st).1 = e.beta → (ch (ch st).2).1 = e.gamma →
        (drawN ch (pre.parts - 1) (ch (ch st).2).2).1 = e.parts →
        permVerify ch pre.lagrange0 pre.mqc pre.parts (trueClaims L n pre cols m.V m.partitions y) y st =
          some ((f0.eval y, f1.eval y, f2.eval y), (drawN ch (pre.parts - 1) (ch (ch st).2).2).2)) := by
    intro m e
    by_cases h : c.copies ≠ [] ∧ m.Sized n c mqc pre.parts ∧ e.parts.length = pre.parts - 1
    · obtain ⟨f0, f1, f2, e0, e1, e2, e3⟩ := permVerify_parts_polys (L := L) s3 s4 s1 s2 s8 s9 s10 (s12 ▸ s13) cols
        hcl hcb m.V h.2.1.V m.partitions (h.2.1.count h.1) h.2.1.partitions e.beta e.gamma e.parts h.2.2
      exact ⟨f0, f1, f2, e0, e1, e2, fun h' => absurd h' h.1, fun _ _ _ => e3⟩
    · exact ⟨0, 0, 0, by simp, by simp, by simp, fun _ => ⟨rfl, rfl, rfl⟩, fun a b e => absurd ⟨a, b, e⟩ h⟩
  choose p0 p1 p2 hp0 hp1 hp2 hpz hpv using hP
  obtain ⟨bb, bg, hbb, hbg, hcopies⟩ : ∃ (bb : Finset F) (bg : F → Finset F),
      bb.card ≤ order.length * d.usableRows ∧ (∀ b, (bg b).card ≤ 2 * (order.length * d.usableRows)) ∧
      (c.copies ≠ [] → pre.parts = 1 → DeltaSeparates n order.length delta →
        ∀ (m : PartsMessages F) (e : EarlyChallenges F), m.Sized n c mqc pre.parts → e.parts.length = pre.parts - 1 →
          e.beta ∉ bb → e.gamma ∉ bg e.beta → PolyVanishesOnRows L n (p0 m e) →
          PolyVanishesOnRows L n (p1 m e) → PolyVanishesOnRows L n (p2 m e) → CopiesHold d c.copies t.cellAt) := by
    by_cases h : c.copies ≠ [] ∧ pre.parts = 1 ∧ DeltaSeparates n order.length delta
    swap
    · exact ⟨∅, fun _ => ∅, by simp, by simp, fun h1 h2 h3 => absurd ⟨h1, h2, h3⟩ h⟩
    obtain ⟨bb, hbb, hb⟩ := C32_soundness_one_part_partial (hS.permSetup_of hperm hgi)
      (by rw [hgl]; exact h.2.2.2) h.2.2.1 h.2.1 (fun i => (t.column i).map L.coefficients) cols hcols
    rw [hgl] at hbb hb
    have : ∀ beta, ∃ bg : Finset F, bg.card ≤ 2 * (order.length * d.usableRows) ∧ (beta ∉ bb → ∀ gamma ∉ bg,
        ∀ (S : Type) (ch : S → F × S) (st : S), (ch st).1 = beta → (ch (ch st).2).1 = gamma →
          ∀ (V : List F) (parts : List (List F)), RowsAccepted ch st L n pre cols V parts →
            CopiesHold d c.copies (columnValue L n fun i => (t.column i).map L.coefficients)) := by
      intro beta
      by_cases hbm : beta ∈ bb
      · exact ⟨∅, by simp, fun h => absurd hbm h⟩
      · obtain ⟨bg, h1, h2⟩ := hb beta hbm
        exact ⟨bg, h1, fun _ => h2⟩
    choose bg h1 h2 using this
    refine ⟨bb, bg, hbb, h1, fun hc hone _ m e hm hel hbm hgm v0 v1 v2 => ?_⟩
    rw [← copiesHold_columns hL hn hS.fits (hS.rows ▸ hS.usable) hS.copies]
    refine h2 e.beta hbm e.gamma hgm (List F) scripted [e.beta, e.gamma] rfl rfl m.V m.partitions fun j hj => ?_
    have he : (drawN (scripted (F := F)) (pre.parts - 1) (scripted (scripted [e.beta, e.gamma]).2).2).1 = e.parts := by
      rw [hone]
      rw [hone] at hel
      exact (List.length_eq_zero_iff.1 hel).symm
    have e := hpv m e hc hm hel (List F) scripted [e.beta, e.gamma] (L.root n ^ j) rfl rfl he
    rw [v0 j hj, v1 j hj, v2 j hj] at e
    exact ⟨_, e⟩
  -- the lookup argument
  have hmq : (lookupData pre).mqc = mqc := s12
  have hLk : ∀ (m : PartsMessages F) (e : EarlyChallenges F),
      ∃ f0 f1 f2 f3 : F[X], f0.natDegree ≤ 2 * (2 ^ n - 1) ∧ f1.natDegree ≤ 3 * (2 ^ n - 1) ∧
      f2.natDegree ≤ (c.lookupCosts.sum + 2) * (2 ^ n - 1) ∧ f3.natDegree ≤ 2 * (2 ^ n - 1) ∧
      (c.lookups.gates = [] → f0 = 0 ∧ f1 = 0 ∧ f2 = 0 ∧ f3 = 0) ∧
      (c.lookups.gates ≠ [] → m.Sized n c mqc pre.parts →
        e.lookupParts.length = (c.lookups.parts mqc).length - 1 →
      ∀ (S Com : Type) (ch : S → F × S) (absorb : Com → S → S) (com : Com) (st : S) (y : F)
        (ev : Nat → Int → ColumnType → Option F), TrueLookupEvaluations L n t c.lookups y ev →
        (ch st).1 = e.theta → (ch (absorb com (ch st).2)).1 = e.lookupBeta →
        (ch (ch (absorb com (ch st).2)).2).1 = e.lookupGamma →
        (drawN ch ((c.lookups.parts (lookupData pre).mqc).length - 1)
          (ch (ch (absorb com (ch st).2)).2).2).1 = e.lookupParts →
        (drawN ch (m.sorted.length - 1) (drawN ch ((c.lookups.parts (lookupData pre).mqc).length - 1)
          (ch (ch (absorb com (ch st).2)).2).2).2).1 = e.lookupAlphas →
        lookupVerify ch absorb com c.lookups (lookupData pre).mqc ev
          (trueLookupClaims L n (lookupData pre) m.sorted m.lookupV m.lookupPartitions y) st =
          some ((f0.eval y, f1.eval y, f2.eval y, f3.eval y),
            (drawN ch (m.sorted.length - 1) (drawN ch ((c.lookups.parts (lookupData pre).mqc).length - 1)
              (ch (ch (absorb com (ch st).2)).2).2).2).2)) := by
    intro m e
    by_cases h : c.lookups.gates ≠ [] ∧ m.Sized n c mqc pre.parts ∧
        e.lookupParts.length = (c.lookups.parts mqc).length - 1
    · obtain ⟨f0, f1, f2, f3, e0, e1, e2, e3, e4⟩ := lookupVerify_parts_polys (hS.lookupSetup_of hperm h.1) hdeg.inputs
        (by rw [hmq]; exact hne h.1) (by rw [hmq]; exact lookup_parts_sum h.1) m.sorted h.2.1.sorted
        (h.2.1.sortedCount h.1) m.lookupV h.2.1.lookupV m.lookupPartitions h.2.1.lookupPartitions
        (by rw [hmq]; exact h.2.1.lookupCount h.1) e.theta e.lookupBeta e.lookupGamma e.lookupParts e.lookupAlphas
        (by rw [hmq]; exact h.2.2) (K := c.lookupCosts.sum) le_rfl
      exact ⟨f0, f1, f2, f3, e0, e1, e2, e3, fun h' => absurd h' h.1, fun _ _ _ => e4⟩
    · exact ⟨0, 0, 0, 0, by simp, by simp, by simp, by simp, fun _ => ⟨rfl, rfl, rfl, rfl⟩,
        fun a b e => absurd ⟨a, b, e⟩ h⟩
  choose l0 l1 l2 l3 hl0 hl1 hl2 hl3 hlz hlv using hLk
  have hus : (lookupData pre).usable = d.usableRows := s11
  obtain ⟨bth, blb, blg, bla, hbth, hblb, hblg, hbla, hlooks⟩ : ∃ (bth : Finset F)
      (blb : F → List (List F) → Finset F) (blg : F → List (List F) → F → Finset F)
      (bla : List (List F) → List F → Finset F),
      bth.card ≤ c.lookups.inputCount * d.usableRows * (c.lookups.optionCount * d.usableRows + 1) * w ∧
      (∀ th s, (blb th s).card ≤
        (2 * ((c.lookups.inputCount + c.lookups.optionCount) * d.usableRows)) ^ 2 + 1) ∧
      (∀ th s b, (blg th s b).card ≤ 3 * ((c.lookups.inputCount + c.lookups.optionCount) * d.usableRows)) ∧
      (∀ s l, (bla s l).card ≤ 1) ∧
      (c.lookups.gates ≠ [] → (c.lookups.parts mqc).length = 1 → LookupsCheckable t c.lookups d.usableRows w →
        ∀ (m : PartsMessages F) (e : EarlyChallenges F), m.Sized n c mqc pre.parts →
        e.lookupParts.length = (c.lookups.parts mqc).length - 1 →
        e.theta ∉ bth → e.lookupBeta ∉ blb e.theta m.sorted → e.lookupGamma ∉ blg e.theta m.sorted e.lookupBeta →
        (∀ i a, e.lookupAlphas[i]? = some a → a ∉ bla m.sorted (e.lookupAlphas.take i)) →
        PolyVanishesOnRows L n (l0 m e) → PolyVanishesOnRows L n (l1 m e) →
        PolyVanishesOnRows L n (l2 m e) → PolyVanishesOnRows L n (l3 m e) →
        ∀ (S Com : Type) (ch : S → F × S) (absorb : Com → S → S) (com : Com) (st : S),
          (ch st).1 = e.theta → (ch (absorb com (ch st).2)).1 = e.lookupBeta →
          (ch (ch (absorb com (ch st).2)).2).1 = e.lookupGamma →
          (drawN ch (m.sorted.length - 1) (ch (ch (absorb com (ch st).2)).2).2).1 = e.lookupAlphas →
          LookupsHold t c.lookups d.usableRows) := by
    by_cases h : c.lookups.gates ≠ [] ∧ (c.lookups.parts mqc).length = 1 ∧
        LookupsCheckable t c.lookups d.usableRows w
    swap
    · exact ⟨∅, fun _ _ => ∅, fun _ _ _ => ∅, fun _ _ => ∅, by simp, by simp, by simp, by simp,
        fun h1 h2 h3 => absurd ⟨h1, h2, h3⟩ h⟩
    have hk := h.2.2
    obtain ⟨bth, blb, blg, bla, h1, h2, h3, h4, h5⟩ := lookup_bad (hS.lookupSetup_of hperm h.1) hk.wellFormed
      (by rw [hus]; exact hk.tags) hk.options (by rw [hmq]; exact h.2.1) w hk.columns
    rw [hus] at h1 h2 h3 h5
    refine ⟨bth, blb, blg, bla, h1, h2, h3, h4, fun hc hone _ m e hm hel b1 b2 b3 b4
      v0 v1 v2 v3 S Com ch absorb com st c1 c2 c3 c4 => ?_⟩
    refine h5 e.theta m.sorted e.lookupBeta e.lookupGamma e.lookupAlphas b1 b2 b3 b4 S Com ch absorb com st m.lookupV
      m.lookupPartitions c1 c2 c3 c4 fun j hj => ?_
    have hone' : (c.lookups.parts (lookupData pre).mqc).length - 1 = 0 := by rw [hmq, hone]
    have hnil : e.lookupParts = [] := by rw [← List.length_eq_zero_iff, hel, hone]
    have e' := hlv m e hc hm hel S Com ch absorb com st (L.root n ^ j)
      (tableEvaluations L n t (L.root n ^ j)) ?_ c1 c2 c3 (by rw [hone', hnil]; rfl) (by rw [hone']; exact c4)
    · rw [v0 j hj, v1 j hj, v2 j hj, v3 j hj] at e'
      exact ⟨_, e'⟩
    refine ⟨fun tab _ r _ => ⟨rfl, fun o _ v _ => rfl⟩, fun g _ => ⟨?_, fun c _ e _ v _ => rfl⟩⟩
    simp [tableEvaluations]
  -- the gates
  choose g hgd hgv using fun theta => gateVerify_poly hS.gateSetup hdg theta
  obtain ⟨bgt, hbgt, hgates⟩ := C34_sound hS.gateSetup
  -- the combination
  let fs : PartsMessages F → EarlyChallenges F → List F[X] :=
    fun m e => [p0 m e, p1 m e, p2 m e, l0 m e, l1 m e, l2 m e, l3 m e, g e.gateTheta]
  have hfsd : ∀ m e, ∀ f ∈ fs m e, f.natDegree ≤
      max (order.length + 2) (max (dg + 2) (max (c.lookupCosts.sum + 2) 3)) * (2 ^ n - 1) := by
    intro m e f hf
    have up : ∀ a, a ≤ max (order.length + 2) (max (dg + 2) (max (c.lookupCosts.sum + 2) 3)) →
        a * (2 ^ n - 1) ≤ max (order.length + 2) (max (dg + 2) (max (c.lookupCosts.sum + 2) 3)) * (2 ^ n - 1) :=
      fun a ha => Nat.mul_le_mul_right _ ha
    simp only [fs, List.mem_cons, List.not_mem_nil, or_false] at hf
    rcases hf with rfl | rfl | rfl | rfl | rfl | rfl | rfl | rfl
    · exact (hp0 _ _).trans (up _ (by omega))
    · exact (hp1 _ _).trans (up _ (by omega))
    · exact (hp2 _ _).trans (up _ (by omega))
    · exact (hl0 _ _).trans (up _ (by omega))
    · exact (hl1 _ _).trans (up _ (by omega))
    · exact (hl2 _ _).trans (up _ (by omega))
    · exact (hl3 _ _).trans (up _ (by omega))
    · exact (hgd _).trans (up _ (by omega))
  choose bal hbal hal using fun m e => linear_bad (ι := Fin (2 ^ n)) 8
    fun i j => ((fs m e).getD i 0).eval (L.root n ^ (j : Nat))
  choose by' hby hy using fun m e as ch => equation_bad hL hn as (fs m e) ch _ (hfsd m e)
  refine ⟨⟨bb, bg, bth, blb, blg, bla, bgt, bal, by'⟩,
    ⟨hbb, hbg, hbth, hblb, hblg, hbla, hbgt, hbal, hby⟩, ?_⟩
  intro S H Com Pr Data Obj C T hash obj o0 pd t0 hpre htc hts proof m chunks hm hch ho vcom lcom pcom qcom hv hlc hpc
    hqc x hx ⟨hat, haa, hay⟩ hacc
  have hp := (preprocess_facts hpre).of_table htc hts
  have hpd : pd.perm = pre := by
    have := hp.perm
    rw [hperm, Option.some_inj] at this
    exact this.symm
  have hgi' : pd.common.permutedColumns = gi := Option.some_inj.1 (hp.indices.symm.trans hgi)
  subst hpd
  have ep : x.early.parts.length = pd.perm.parts - 1 := by rw [hx]; exact length_drawN _ _ _
  have eq : x.early.lookupParts.length = (c.lookups.parts mqc).length - 1 := by rw [hx]; exact length_drawN _ _ _
  obtain ⟨-, hfe⟩ := accepted_parts_equation (m := m) hS hp hm ho hacc hv hlc hpc hqc hx
    (cols := cols) (by rw [hgi']; exact hcols)
    (hpz m x.early) (fun h => hpv m x.early h hm ep) (hlz m x.early) (fun h => hlv m x.early h hm eq)
    (fun S ch st y ev => hgv x.early.gateTheta S ch st y ev)
  have hvan := hy m x.early x.alphas chunks hch x.y hay hfe
  have hal8 : x.alphas.length = 8 := by rw [hx]; exact length_drawN _ _ _
  have hzero := hal m x.early x.alphas hal8 haa (by
      intro j
      have := hvan j j.2
      rw [combination_rows _ _ (by rw [hal8]; rfl)] at this
      exact this)
  have van : ∀ i < 8, PolyVanishesOnRows L n ((fs m x.early).getD i 0) := fun i hi j hj => hzero i hi ⟨j, hj⟩
  refine ⟨?_, ?_, ?_⟩
  · refine hgates (List F) scripted [x.early.gateTheta] hat fun j hj ev hev => ?_
    have e := hgv x.early.gateTheta (List F) scripted [x.early.gateTheta] (L.root n ^ j) ev rfl hev
    rw [show (g x.early.gateTheta).eval (L.root n ^ j) = 0 from van 7 (by norm_num) j hj] at e
    exact ⟨_, e⟩
  · intro h1 h2 h3 h4
    exact hcopies h1 h2 h3 m x.early hm ep h4.1 h4.2 (van 0 (by norm_num)) (van 1 (by norm_num)) (van 2 (by norm_num))
  · intro h1 h2 h3 h4
    have hfin := hlooks h1 h2 h3 m x.early hm eq h4.1 h4.2.1 h4.2.2.1 h4.2.2.2 (van 3 (by norm_num))
      (van 4 (by norm_num)) (van 5 (by norm_num)) (van 6 (by norm_num)) S Com T.challenge T.absorb lcom
    clear van hzero hvan hfe
    subst hx
    refine hfin _ rfl rfl rfl ?_
    change _ = (drawN T.challenge (m.sorted.length - 1) (drawN T.challenge ((c.lookups.parts mqc).length - 1) _).2).1
    rw [h2]
    rfl

end Crypto3Zk
