import Verif.Lemmas.PlaceholderSoundParts
import Verif.Lemmas.PlaceholderSoundRun

/-!
# C66: soundness of the placeholder proof system
-/

set_option linter.unusedSectionVars false

namespace Crypto3Zk

open Polynomial

variable {F : Type} [Field F] [DecidableEq F]
variable {L : FftLib F} {A n fuel : Nat} {d : TableDesc} {c : Circuit F} {order : List PlonkVar}
  {t : PlonkTable F} {delta : F} {mqc : Nat} {pre : PermData F}

/-- C66: if the verifier accepts, the table to which the prover is committed satisfies the circuit, unless a bad
challenge was drawn. The sets of bad challenges are fixed first, each for what was fixed before the challenge is
drawn, and are small; then come the commitment scheme, the transcript and the prover, who opens the polynomials
truly but is not restricted otherwise. -/
theorem C66_soundness_partial (hS : PlaceholderSetup L A n fuel d c order t)
    (hperm : permPreprocess L n fuel d c.copies order delta mqc = some pre) (hdeg : DegreesFit c)
    {dg : Nat} (hdg : ∀ g ∈ c.gates, ∀ e ∈ g.constraints, e.degree ≤ dg)
    (hone : c.copies ≠ [] → pre.parts = 1)
    (hlone : c.lookups.gates ≠ [] → (c.lookups.parts mqc).length = 1)
    (hdelta : c.copies ≠ [] → DeltaSeparates n order.length delta)
    {w : Nat} (hlk : c.lookups.gates ≠ [] → LookupsCheckable t c.lookups d.usableRows w) :
    ∃ B : BadChallenges F, B.Small c n d.usableRows order.length dg w ∧
      ∀ {S H Com Pr Data Obj : Type} (C : CommScheme F S Com Pr Data Obj) (T : PlonkTranscript S F H Com)
        (hash : H) (obj o0 : Obj) (pd : PublicData F H Com Data) (t0 : PlonkTable F),
        placeholderPreprocess C T L n fuel d c order delta mqc hash t0 obj = some (pd, o0) →
        t0.constants = t.constants → t0.selectors = t.selectors →
        ∀ (proof : PlaceholderProof F Com Pr) (m : ProverMessages F), m.Sized n →
          OpenedTruly L n d c pd.common pre t m proof →
          ∀ (vcom lcom pcom qcom : Com), proof.commitments.find VARIABLE_BATCH = some vcom →
            (c.lookups.gates ≠ [] → proof.commitments.find LOOKUP_BATCH = some lcom) →
            (c.copies ≠ [] ∨ c.lookups.gates ≠ [] → proof.commitments.find PERMUTATION_BATCH = some pcom) →
            proof.commitments.find QUOTIENT_BATCH = some qcom →
            B.Avoided c m (readChallenges T c m.sorted.length vcom lcom pcom qcom
              (C.setup o0 (T.key pd.common.hash pd.common.fixedCommitment) pd.common.schemeData).1) →
            placeholderVerify C T L n true d c pd.common proof o0 = some true →
            CopiesHold d c.copies t.cellAt ∧ GatesHold t c.gates d.usableRows ∧
              (c.lookups.gates ≠ [] → LookupsHold t c.lookups d.usableRows) := by
  classical
  have hL := hS.lib
  have hn := hS.small
  obtain ⟨s1, s2, s3, s4, q1, q2, q3, s8, s9, s10, s11, s12, s13⟩ := permPreprocess_shape hL hn hperm
  obtain ⟨gi, hgi⟩ := hS.indices
  have hgl : gi.length = order.length := length_mapM _ _ _ hgi
  obtain ⟨cols, hcols, hcl, hcb⟩ := hS.permutedCols hgi
  have hpos : 0 < 2 ^ n := Nat.two_pow_pos n
  -- the permutation argument
  have hP : ∀ (beta gamma : F) (V : List F), ∃ f0 f1 f2 : F[X], f0.natDegree ≤ 2 * (2 ^ n - 1) ∧
      f1.natDegree ≤ (order.length + 2) * (2 ^ n - 1) ∧ f2.natDegree ≤ 3 * (2 ^ n - 1) ∧
      (c.copies = [] → f0 = 0 ∧ f1 = 0 ∧ f2 = 0) ∧
      (c.copies ≠ [] → V.length ≤ 2 ^ n →
        ∀ (S : Type) (ch : S → F × S) (st : S) (y : F), (ch st).1 = beta → (ch (ch st).2).1 = gamma →
        permVerify ch pre.lagrange0 pre.mqc pre.parts (trueClaims L n pre cols V [] y) y st =
          some ((f0.eval y, f1.eval y, f2.eval y), (ch (ch st).2).2)) := by
    intro beta gamma V
    by_cases h : c.copies ≠ [] ∧ V.length ≤ 2 ^ n
    · obtain ⟨f0, f1, f2, e0, e1, e2, e3⟩ := permVerify_polys (L := L) s3 s4 s1 s2 s8 s9 s10 (s12 ▸ s13) (hone h.1) cols hcl hcb
        V h.2 beta gamma
      exact ⟨f0, f1, f2, e0, e1, e2, fun h' => absurd h' h.1, fun _ _ => e3⟩
    · exact ⟨0, 0, 0, by simp, by simp, by simp, fun _ => ⟨rfl, rfl, rfl⟩, fun a b => absurd ⟨a, b⟩ h⟩
  choose p0 p1 p2 hp0 hp1 hp2 hpz hpv using hP
  obtain ⟨bb, bg, hbb, hbg, hcopies⟩ : ∃ (bb : Finset F) (bg : F → Finset F),
      bb.card ≤ order.length * d.usableRows ∧ (∀ b, (bg b).card ≤ 2 * (order.length * d.usableRows)) ∧
      (c.copies ≠ [] → ∀ beta ∉ bb, ∀ gamma ∉ bg beta, ∀ V : List F, V.length ≤ 2 ^ n →
        PolyVanishesOnRows L n (p0 beta gamma V) → PolyVanishesOnRows L n (p1 beta gamma V) →
        PolyVanishesOnRows L n (p2 beta gamma V) → CopiesHold d c.copies t.cellAt) := by
    by_cases h : c.copies = []
    · exact ⟨∅, fun _ => ∅, by simp, by simp, fun h' => absurd h h'⟩
    obtain ⟨bb, hbb, hb⟩ := C32_soundness_one_part_partial (hS.permSetup_of hperm hgi)
      (by rw [hgl]; exact (hdelta h).2) (hdelta h).1 (hone h) (fun i => (t.column i).map L.coefficients) cols hcols
    rw [hgl] at hbb hb
    have : ∀ beta, ∃ bg : Finset F, bg.card ≤ 2 * (order.length * d.usableRows) ∧ (beta ∉ bb → ∀ gamma ∉ bg,
        ∀ (S : Type) (ch : S → F × S) (st : S), (ch st).1 = beta → (ch (ch st).2).1 = gamma →
          ∀ (V : List F) (parts : List (List F)), RowsAccepted ch st L n pre cols V parts →
            CopiesHold d c.copies (columnValue L n fun i => (t.column i).map L.coefficients)) := by
      intro beta
      by_cases hbm : beta ∈ bb
      · exact ⟨∅, by simp, fun h => absurd hbm h⟩
      · obtain ⟨bg, h1, h2⟩ := hb beta hbm
        exact ⟨bg, h1, fun _ => h2⟩
    choose bg h1 h2 using this
    refine ⟨bb, bg, hbb, h1, fun hne beta hbm gamma hgm V hV v0 v1 v2 => ?_⟩
    rw [← copiesHold_columns hL hn hS.fits (hS.rows ▸ hS.usable) hS.copies]
    refine h2 beta hbm gamma hgm (List F) scripted [beta, gamma] rfl rfl V [] fun j hj => ?_
    have e := hpv beta gamma V hne hV (List F) scripted [beta, gamma] (L.root n ^ j) rfl rfl
    rw [v0 j hj, v1 j hj, v2 j hj] at e
    exact ⟨_, e⟩
  -- the lookup argument
  obtain ⟨p, hpp⟩ : ∃ p, c.lookups.gates ≠ [] → c.lookups.parts mqc = [p] := by
    by_cases h : c.lookups.gates = []
    · exact ⟨0, fun h' => absurd h h'⟩
    · obtain ⟨p, hp⟩ := List.length_eq_one_iff.1 (hlone h)
      exact ⟨p, fun _ => hp⟩
  have hmq : (lookupData pre).mqc = mqc := s12
  have hus : (lookupData pre).usable = d.usableRows := s11
  have hLk : ∀ (theta : F) (sorted : List (List F)) (beta gamma : F) (alphas V : List F),
      ∃ f0 f1 f2 f3 : F[X], f0.natDegree ≤ 2 * (2 ^ n - 1) ∧ f1.natDegree ≤ 3 * (2 ^ n - 1) ∧
      f2.natDegree ≤ (c.lookupCosts.sum + 2) * (2 ^ n - 1) ∧ f3.natDegree ≤ 2 * (2 ^ n - 1) ∧
      (c.lookups.gates = [] → f0 = 0 ∧ f1 = 0 ∧ f2 = 0 ∧ f3 = 0) ∧
      (c.lookups.gates ≠ [] → (∀ c ∈ sorted, c.length = 2 ^ n) → V.length = 2 ^ n →
      ∀ (S Com : Type) (ch : S → F × S) (absorb : Com → S → S) (com : Com) (st : S) (y : F)
        (ev : Nat → Int → ColumnType → Option F), TrueLookupEvaluations L n t c.lookups y ev →
        (ch st).1 = theta → (ch (absorb com (ch st).2)).1 = beta →
        (ch (ch (absorb com (ch st).2)).2).1 = gamma →
        (drawN ch (sorted.length - 1) (ch (ch (absorb com (ch st).2)).2).2).1 = alphas →
        lookupVerify ch absorb com c.lookups (lookupData pre).mqc ev
          (trueLookupClaims L n (lookupData pre) sorted V [] y) st =
          if c.lookups.inputCount + c.lookups.optionCount = p ∧ sorted.length = p ∧ p ≠ 0 then
            some ((f0.eval y, f1.eval y, f2.eval y, f3.eval y),
              (drawN ch (sorted.length - 1) (ch (ch (absorb com (ch st).2)).2).2).2)
          else none) := by
    intro theta sorted beta gamma alphas V
    by_cases h : c.lookups.gates ≠ [] ∧ (∀ c ∈ sorted, c.length = 2 ^ n) ∧ V.length = 2 ^ n
    · obtain ⟨f0, f1, f2, f3, e0, e1, e2, e3, e4⟩ := lookupVerify_polys (hS.lookupSetup_of hperm h.1) hdeg.inputs
        (p := p) (by rw [hmq]; exact hpp h.1) sorted h.2.1 V h.2.2 theta beta gamma alphas
        (K := c.lookupCosts.sum) le_rfl
      exact ⟨f0, f1, f2, f3, e0, e1, e2, e3, fun h' => absurd h' h.1, fun _ _ _ => e4⟩
    · exact ⟨0, 0, 0, 0, by simp, by simp, by simp, by simp, fun _ => ⟨rfl, rfl, rfl, rfl⟩,
        fun a b e => absurd ⟨a, b, e⟩ h⟩
  choose l0 l1 l2 l3 hl0 hl1 hl2 hl3 hlz hlv using hLk
  obtain ⟨bth, blb, blg, bla, hbth, hblb, hblg, hbla, hlooks⟩ : ∃ (bth : Finset F)
      (blb : F → List (List F) → Finset F) (blg : F → List (List F) → F → Finset F)
      (bla : List (List F) → List F → Finset F),
      bth.card ≤ c.lookups.inputCount * d.usableRows * (c.lookups.optionCount * d.usableRows + 1) * w ∧
      (∀ th s, (blb th s).card ≤
        (2 * ((c.lookups.inputCount + c.lookups.optionCount) * d.usableRows)) ^ 2 + 1) ∧
      (∀ th s b, (blg th s b).card ≤ 3 * ((c.lookups.inputCount + c.lookups.optionCount) * d.usableRows)) ∧
      (∀ s l, (bla s l).card ≤ 1) ∧
      (c.lookups.gates ≠ [] → ∀ (theta : F) (sorted : List (List F)) (beta gamma : F) (alphas V : List F),
        (∀ c ∈ sorted, c.length = 2 ^ n) → V.length = 2 ^ n →
        theta ∉ bth → beta ∉ blb theta sorted → gamma ∉ blg theta sorted beta →
        (∀ i a, alphas[i]? = some a → a ∉ bla sorted (alphas.take i)) →
        (c.lookups.inputCount + c.lookups.optionCount = p ∧ sorted.length = p ∧ p ≠ 0) →
        PolyVanishesOnRows L n (l0 theta sorted beta gamma alphas V) →
        PolyVanishesOnRows L n (l1 theta sorted beta gamma alphas V) →
        PolyVanishesOnRows L n (l2 theta sorted beta gamma alphas V) →
        PolyVanishesOnRows L n (l3 theta sorted beta gamma alphas V) →
        ∀ (S Com : Type) (ch : S → F × S) (absorb : Com → S → S) (com : Com) (st : S),
          (ch st).1 = theta → (ch (absorb com (ch st).2)).1 = beta →
          (ch (ch (absorb com (ch st).2)).2).1 = gamma →
          (drawN ch (sorted.length - 1) (ch (ch (absorb com (ch st).2)).2).2).1 = alphas →
          LookupsHold t c.lookups d.usableRows) := by
    by_cases h : c.lookups.gates = []
    · exact ⟨∅, fun _ _ => ∅, fun _ _ _ => ∅, fun _ _ => ∅, by simp, by simp, by simp, by simp,
        fun h' => absurd h h'⟩
    have hk := hlk h
    obtain ⟨bth, blb, blg, bla, h1, h2, h3, h4, h5⟩ := lookup_bad (hS.lookupSetup_of hperm h) hk.wellFormed
      (by rw [hus]; exact hk.tags) hk.options (by rw [hmq]; exact hlone h) w hk.columns
    rw [hus] at h1 h2 h3 h5
    refine ⟨bth, blb, blg, bla, h1, h2, h3, h4, fun hne theta sorted beta gamma alphas V hsl hVl b1 b2 b3 b4 hQ
      v0 v1 v2 v3 S Com ch absorb com st c1 c2 c3 c4 => ?_⟩
    refine h5 theta sorted beta gamma alphas b1 b2 b3 b4 S Com ch absorb com st V [] c1 c2 c3 c4
      fun j hj => ?_
    have e := hlv theta sorted beta gamma alphas V hne hsl hVl S Com ch absorb com st (L.root n ^ j)
      (tableEvaluations L n t (L.root n ^ j)) ?_ c1 c2 c3 c4
    · rw [if_pos hQ, v0 j hj, v1 j hj, v2 j hj, v3 j hj] at e
      exact ⟨_, e⟩
    refine ⟨fun tab _ r _ => ⟨rfl, fun o _ v _ => rfl⟩, fun g _ => ⟨?_, fun c _ e _ v _ => rfl⟩⟩
    simp [tableEvaluations]
  -- the gates
  choose g hgd hgv using fun theta => gateVerify_poly hS.gateSetup hdg theta
  obtain ⟨bgt, hbgt, hgates⟩ := C34_sound hS.gateSetup
  -- the combination
  let fs : F → F → F → List (List F) → F → F → List F → List F → List F → F → List F[X] :=
    fun b ga th s lb lg la V lV gt => [p0 b ga V, p1 b ga V, p2 b ga V, l0 th s lb lg la lV, l1 th s lb lg la lV,
      l2 th s lb lg la lV, l3 th s lb lg la lV, g gt]
  have hfsd : ∀ b ga th s lb lg la V lV gt, ∀ f ∈ fs b ga th s lb lg la V lV gt, f.natDegree ≤
      max (order.length + 2) (max (dg + 2) (max (c.lookupCosts.sum + 2) 3)) * (2 ^ n - 1) := by
    intro b ga th s lb lg la V lV gt f hf
    have up : ∀ a, a ≤ max (order.length + 2) (max (dg + 2) (max (c.lookupCosts.sum + 2) 3)) →
        a * (2 ^ n - 1) ≤ max (order.length + 2) (max (dg + 2) (max (c.lookupCosts.sum + 2) 3)) * (2 ^ n - 1) :=
      fun a ha => Nat.mul_le_mul_right _ ha
    simp only [fs, List.mem_cons, List.not_mem_nil, or_false] at hf
    rcases hf with rfl | rfl | rfl | rfl | rfl | rfl | rfl | rfl
    · exact (hp0 _ _ _).trans (up _ (by omega))
    · exact (hp1 _ _ _).trans (up _ (by omega))
    · exact (hp2 _ _ _).trans (up _ (by omega))
    · exact (hl0 _ _ _ _ _ _).trans (up _ (by omega))
    · exact (hl1 _ _ _ _ _ _).trans (up _ (by omega))
    · exact (hl2 _ _ _ _ _ _).trans (up _ (by omega))
    · exact (hl3 _ _ _ _ _ _).trans (up _ (by omega))
    · exact (hgd _).trans (up _ (by omega))
  choose bal hbal hal using fun b ga th s lb lg la V lV gt => linear_bad (ι := Fin (2 ^ n)) 8
    fun i j => ((fs b ga th s lb lg la V lV gt).getD i 0).eval (L.root n ^ (j : Nat))
  choose by' hby hy using fun b ga th s lb lg la V lV gt as ch =>
    equation_bad hL hn as (fs b ga th s lb lg la V lV gt) ch _ (hfsd b ga th s lb lg la V lV gt)
  refine ⟨⟨bb, bg, bth, blb, blg, fun _ s _ _ => bla s, bgt, bal, by'⟩,
    ⟨hbb, hbg, hbth, hblb, hblg, fun _ s _ _ l => hbla s l, hbgt, hbal, hby⟩, ?_⟩
  intro S H Com Pr Data Obj C T hash obj o0 pd t0 hpre htc hts proof m hm ho vcom lcom pcom qcom hv hlc hpc hqc
    hav hacc
  have hp := (preprocess_facts hpre).of_table htc hts
  have hpd : pd.perm = pre := by
    have := hp.perm
    rw [hperm, Option.some_inj] at this
    exact this.symm
  have hgi' : pd.common.permutedColumns = gi := Option.some_inj.1 (hp.indices.symm.trans hgi)
  obtain ⟨x, hx⟩ : ∃ x, x = readChallenges T c m.sorted.length vcom lcom pcom qcom
      (C.setup o0 (T.key pd.common.hash pd.common.fixedCommitment) pd.common.schemeData).1 := ⟨_, rfl⟩
  rw [← hx] at hav
  subst hpd
  obtain ⟨-, hQ, hfe⟩ := accepted_equation (m := m) hS hp hone hlone ho hacc hv hlc hpc hqc hx
    (cols := cols) (by rw [hgi']; exact hcols)
    (hpz x.beta x.gamma m.V)
    (fun h => hpv x.beta x.gamma m.V h hm.V)
    (hlz x.theta m.sorted x.lookupBeta x.lookupGamma x.lookupAlphas m.lookupV)
    (fun h => hlv x.theta m.sorted x.lookupBeta x.lookupGamma x.lookupAlphas m.lookupV h hm.sorted hm.lookupV)
    (fun S ch st y ev => hgv x.gateTheta S ch st y ev)
  have hvan := hy x.beta x.gamma x.theta m.sorted x.lookupBeta x.lookupGamma x.lookupAlphas m.V m.lookupV
    x.gateTheta x.alphas m.chunks hm.chunks x.y hav.y hfe
  have hal8 : x.alphas.length = 8 := by rw [hx]; exact length_drawN _ _ _
  have hzero := hal x.beta x.gamma x.theta m.sorted x.lookupBeta x.lookupGamma x.lookupAlphas m.V m.lookupV
    x.gateTheta x.alphas hal8 hav.alpha (by
      intro j
      have := hvan j j.2
      rw [combination_rows _ _ (by rw [hal8]; rfl)] at this
      exact this)
  have van : ∀ i < 8, PolyVanishesOnRows L n ((fs x.beta x.gamma x.theta m.sorted x.lookupBeta x.lookupGamma
      x.lookupAlphas m.V m.lookupV x.gateTheta).getD i 0) := fun i hi j hj => hzero i hi ⟨j, hj⟩
  refine ⟨?_, ?_, ?_⟩
  · by_cases h : c.copies = []
    · rw [h]
      intro e he
      cases he
    · exact hcopies h x.beta (hav.beta h) x.gamma (hav.gamma h) m.V hm.V (van 0 (by norm_num)) (van 1 (by norm_num))
        (van 2 (by norm_num))
  · refine hgates (List F) scripted [x.gateTheta] hav.gateTheta fun j hj ev hev => ?_
    have e := hgv x.gateTheta (List F) scripted [x.gateTheta] (L.root n ^ j) ev rfl hev
    rw [show (g x.gateTheta).eval (L.root n ^ j) = 0 from van 7 (by norm_num) j hj] at e
    exact ⟨_, e⟩
  · intro h
    subst hx
    exact hlooks h _ _ _ _ _ m.lookupV hm.sorted hm.lookupV (hav.theta h) (hav.lookupBeta h) (hav.lookupGamma h)
      (hav.lookupAlpha h) (hQ h) (van 3 (by norm_num)) (van 4 (by norm_num)) (van 5 (by norm_num))
      (van 6 (by norm_num)) S Com T.challenge T.absorb lcom _ rfl rfl rfl rfl

/-- C66, without a limit on the number of chunks of the quotient (the default): there is one part. -/
theorem C66_soundness_no_limit_partial (hS : PlaceholderSetup L A n fuel d c order t)
    (hperm : permPreprocess L n fuel d c.copies order delta 0 = some pre) (hdeg : DegreesFit c)
    {dg : Nat} (hdg : ∀ g ∈ c.gates, ∀ e ∈ g.constraints, e.degree ≤ dg)
    (hdelta : c.copies ≠ [] → DeltaSeparates n order.length delta)
    {w : Nat} (hlk : c.lookups.gates ≠ [] → LookupsCheckable t c.lookups d.usableRows w) :
    ∃ B : BadChallenges F, B.Small c n d.usableRows order.length dg w ∧
      ∀ {S H Com Pr Data Obj : Type} (C : CommScheme F S Com Pr Data Obj) (T : PlonkTranscript S F H Com)
        (hash : H) (obj o0 : Obj) (pd : PublicData F H Com Data) (t0 : PlonkTable F),
        placeholderPreprocess C T L n fuel d c order delta 0 hash t0 obj = some (pd, o0) →
        t0.constants = t.constants → t0.selectors = t.selectors →
        ∀ (proof : PlaceholderProof F Com Pr) (m : ProverMessages F), m.Sized n →
          OpenedTruly L n d c pd.common pre t m proof →
          ∀ (vcom lcom pcom qcom : Com), proof.commitments.find VARIABLE_BATCH = some vcom →
            (c.lookups.gates ≠ [] → proof.commitments.find LOOKUP_BATCH = some lcom) →
            (c.copies ≠ [] ∨ c.lookups.gates ≠ [] → proof.commitments.find PERMUTATION_BATCH = some pcom) →
            proof.commitments.find QUOTIENT_BATCH = some qcom →
            B.Avoided c m (readChallenges T c m.sorted.length vcom lcom pcom qcom
              (C.setup o0 (T.key pd.common.hash pd.common.fixedCommitment) pd.common.schemeData).1) →
            placeholderVerify C T L n true d c pd.common proof o0 = some true →
            CopiesHold d c.copies t.cellAt ∧ GatesHold t c.gates d.usableRows ∧
              (c.lookups.gates ≠ [] → LookupsHold t c.lookups d.usableRows) := by
  obtain ⟨-, -, -, -, -, -, -, -, -, -, -, -, s13⟩ := permPreprocess_shape hS.lib hS.small hperm
  refine C66_soundness_partial hS hperm hdeg hdg ?_ ?_ hdelta hlk
  · intro hne
    have ho : order.length ≠ 0 := by
      intro h0
      obtain ⟨e, es, he⟩ := List.exists_cons_of_ne_nil hne
      have := (hS.members ⟨e.1.index, 0, true, e.1.type⟩).2 ((mem_permutedVars _ _).2 ⟨e, by rw [he]; simp, e.1, Or.inl rfl, rfl⟩)
      rw [List.length_eq_zero_iff.1 h0] at this
      exact absurd this (by simp)
    rw [permutationParts, if_neg ho, if_pos rfl, Option.some_inj] at s13
    exact s13.symm
  · intro _
    rfl

variable {S H Com Pr Data Obj : Type} {C : CommScheme F S Com Pr Data Obj} {T : PlonkTranscript S F H Com}
  {hash : H} {o0 : Obj} {pd : PublicData F H Com Data} {proof : PlaceholderProof F Com Pr}

/-- C66: the proof of an honest prover is opened truly, so the hypotheses on the prover are met (its proofs
are accepted by C65). -/
theorem C66_honest_prover {Has : FriPoly F → List F → Prop} {maxLen : Nat} {okPoints : List F → Prop}
    {okSetup : S → Prop} (hC : C.Complete Has maxLen okPoints okSetup) (hR : C.RootLaws)
    (hH : HasLaws L n Has) (hmax : 2 ^ n ≤ maxLen) (hS : PlaceholderSetup L A n fuel d c order t)
    (hpre : placeholderPreprocess C T L n fuel d c order delta mqc hash t C.new = some (pd, o0))
    (hone : c.copies ≠ [] → pd.perm.parts = 1)
    (hlone : c.lookups.gates ≠ [] → (c.lookups.parts mqc).length = 1)
    (hprove : placeholderProve C T L n d c order pd t o0 = some proof)
    (hset : okSetup (T.key pd.common.hash pd.common.fixedCommitment))
    (hok : ∀ pts, verifierPoints L n d c pd.common proof.challenge = some pts →
      ∀ k i, okPoints (lpcRequested k i pts))
    (hsort : ∀ vcom theta, proof.commitments.find VARIABLE_BATCH = some vcom →
      theta = lookupTheta T c pd.perm.parts vcom
        (C.setup o0 (T.key pd.common.hash pd.common.fixedCommitment) pd.common.schemeData).1 →
      c.lookups.gates ≠ [] → Sortable (compressedInputs t c.lookups n theta)
        (compressedValues t c.lookups n d.usableRows theta) (2 ^ n) d.usableRows) :
    ∃ m : ProverMessages F, m.Sized n ∧ OpenedTruly L n d c pd.common pd.perm t m proof ∧
      (∃ vcom, proof.commitments.find VARIABLE_BATCH = some vcom) ∧
      (c.lookups.gates ≠ [] → ∃ lcom, proof.commitments.find LOOKUP_BATCH = some lcom) ∧
      (c.copies ≠ [] ∨ c.lookups.gates ≠ [] → ∃ pcom, proof.commitments.find PERMUTATION_BATCH = some pcom) ∧
      ∃ qcom, proof.commitments.find QUOTIENT_BATCH = some qcom := by
  have hp := preprocess_facts hpre
  obtain ⟨D, h⟩ := prove_run hR hprove
  obtain ⟨-, -, -, -, -, -, -, -, -, -, s11, -⟩ := permPreprocess_shape hS.lib hS.small hp.perm
  have hu : pd.perm.usableRows ≤ 2 ^ n := by have := hS.rows; have := hS.usable; omega
  obtain ⟨c1, c2, c3, c4, -⟩ := h.find_commitments
  have hsort' := hsort D.vcom _ c1 (h.theta hS.lib hS.small hu)
  obtain ⟨hl, hpl, hvl, -⟩ := h.lengths hS hp hsort'
  obtain ⟨hz, -⟩ := h.storage hC hH hmax hS hp hset (fun k i _ => hok D.pts (h.pts_eq hS hp).2.1 k i) hsort'
  -- the running products
  obtain ⟨V, hV1, hV2⟩ : ∃ V : List F, D.perm = (if c.copies = [] then [] else [V]) ∧ V.length ≤ 2 ^ n := by
    by_cases h0 : c.copies = []
    · exact ⟨[], by rw [if_pos h0, hl.noCopies h0], by simp⟩
    · obtain ⟨V, hV⟩ := List.length_eq_one_iff.1 (hpl.trans (hone h0))
      exact ⟨V, by rw [if_neg h0, hV], hl.permLen V (by simp [hV])⟩
  obtain ⟨lV, hlV1, hlV2⟩ : ∃ lV : List F, D.vl = (if c.lookups.gates = [] then [] else [lV]) ∧
      lV.length = 2 ^ n := by
    rcases h.lookupCase with ⟨h0, -, h1, -⟩ | ⟨h0, -, res, -, -, -, -, -, -, h1, -⟩
    · exact ⟨List.replicate (2 ^ n) 0, by rw [if_pos h0, h1], by simp⟩
    · have := hvl _ _ h1
      rw [hlone h0] at this
      rw [List.length_eq_zero_iff.1 this] at h1
      exact ⟨res.V, by rw [if_neg h0, h1], hl.vlLen _ (by simp [h1])⟩
  refine ⟨⟨V, D.sorted, lV, D.chunks⟩, ⟨hV2, hl.sortedLen, hlV2, hl.chunksLen⟩, ?_, ⟨_, c1⟩, ?_, ?_, ⟨_, c4⟩⟩
  · intro pts hpts k hk
    have hrl := (columnsRotations_spec d c _ hp.rotations).1
    have h2 := verifierPoints_eq L n d c pd.common proof.challenge hrl
    rw [hp.parts, hp.desc] at h2
    obtain rfl := Option.some_inj.1 (h2.symm.trans hpts)
    rw [hz.find k hk]
    congr 2
    rcases hk with rfl | rfl | ⟨-, rfl⟩ | ⟨-, rfl⟩ | rfl
    · simp [committedPolys, honestPolys, FIXED_BATCH]
    · simp [committedPolys, honestPolys, FIXED_BATCH, VARIABLE_BATCH]
    · simp [committedPolys, honestPolys, FIXED_BATCH, VARIABLE_BATCH, LOOKUP_BATCH, PERMUTATION_BATCH,
        QUOTIENT_BATCH]
    · simp only [committedPolys, honestPolys, FIXED_BATCH, VARIABLE_BATCH, PERMUTATION_BATCH]
      rw [hV1, hlV1]
      by_cases h : c.lookups.gates = [] <;> simp [h]
    · simp [committedPolys, honestPolys, FIXED_BATCH, VARIABLE_BATCH, PERMUTATION_BATCH, QUOTIENT_BATCH]
  · intro h0
    rcases h.lookupCase with ⟨h1, -⟩ | ⟨-, -, -, com, -, -, h1, -⟩
    · exact absurd h1 h0
    · exact ⟨com, c2.trans h1⟩
  · intro h0
    rcases h.permCommit with ⟨h1, h2, -⟩ | ⟨-, com, h1, -⟩
    · rcases h0 with h0 | h0
      · exact absurd h1 h0
      · exact absurd h2 h0
    · exact ⟨com, c3.trans h1⟩

/-! ## the bad challenges can be avoided -/

theorem pick_list [Fintype F] (bad : List F → Finset F) (h1 : ∀ l, (bad l).card ≤ 1)
    (hF : 1 < Fintype.card F) (k : Nat) :
    ∃ l : List F, l.length = k ∧ ∀ i a, l[i]? = some a → a ∉ bad (l.take i) := by
  induction k with
  | zero => exact ⟨[], rfl, by simp⟩
  | succ k ih =>
    obtain ⟨l, hl, h⟩ := ih
    obtain ⟨a, ha⟩ : ∃ a, a ∉ bad l := by
      by_contra hcon
      push Not at hcon
      have := Finset.card_le_card (show Finset.univ ⊆ bad l from fun a _ => hcon a)
      rw [Finset.card_univ] at this
      have := h1 l
      omega
    refine ⟨l ++ [a], by simp [hl], fun i b hb => ?_⟩
    rcases Nat.lt_trichotomy i l.length with hi | hi | hi
    · rw [List.getElem?_append_left hi] at hb
      rw [List.take_append_of_le_length hi.le]
      exact h i b hb
    · subst hi
      simp only [List.getElem?_concat_length, Option.some.injEq] at hb
      subst hb
      simpa using ha
    · rw [List.getElem?_eq_none (by simp; omega)] at hb
      cases hb

/-- C66: whatever the prover does, in a field that is large enough there are challenges none of which is bad:
the polynomials of the prover may depend on the challenges drawn before they are committed. -/
theorem C66_avoidable [Fintype F] {B : BadChallenges F} {usable cols dg w : Nat}
    (hB : B.Small c n usable cols dg w) (k q : Nat) (V : F → F → List F) (sorted : F → F → F → List (List F))
    (lookupV : F → F → F → F → F → List F → List F)
    (chunks : F → F → F → F → F → List F → F → List F → List (List F))
    (hq : ∀ b g th lb lg la gt as, (chunks b g th lb lg la gt as).length ≤ q)
    (h1 : 2 * (cols * usable) < Fintype.card F)
    (h2 : c.lookups.inputCount * usable * (c.lookups.optionCount * usable + 1) * w < Fintype.card F)
    (h3 : (2 * ((c.lookups.inputCount + c.lookups.optionCount) * usable)) ^ 2 + 1 < Fintype.card F)
    (h4 : 3 * ((c.lookups.inputCount + c.lookups.optionCount) * usable) < Fintype.card F)
    (h5 : usable * constraintCount c.gates < Fintype.card F)
    (h6 : max (cols + 2) (max (dg + 2) (max (c.lookupCosts.sum + 2) 3)) * (2 ^ n - 1) < Fintype.card F)
    (h7 : 2 ^ n * (q + 1) < Fintype.card F) :
    ∃ x : Challenges F, x.lookupAlphas.length = k ∧ x.alphas.length = 8 ∧
      B.Avoided c ⟨V x.beta x.gamma, sorted x.beta x.gamma x.theta,
        lookupV x.beta x.gamma x.theta x.lookupBeta x.lookupGamma x.lookupAlphas,
        chunks x.beta x.gamma x.theta x.lookupBeta x.lookupGamma x.lookupAlphas x.gateTheta x.alphas⟩ x := by
  have pick : ∀ s : Finset F, s.card < Fintype.card F → ∃ a, a ∉ s := by
    intro s hs
    by_contra hcon
    push Not at hcon
    have := Finset.card_le_card (show Finset.univ ⊆ s from fun a _ => hcon a)
    rw [Finset.card_univ] at this
    omega
  have hF : 1 < Fintype.card F := by omega
  obtain ⟨beta, e1⟩ := pick B.beta (lt_of_le_of_lt hB.beta (by omega))
  obtain ⟨gamma, e2⟩ := pick (B.gamma beta) (lt_of_le_of_lt (hB.gamma _) h1)
  obtain ⟨theta, e3⟩ := pick B.theta (lt_of_le_of_lt hB.theta h2)
  obtain ⟨lb, e4⟩ := pick (B.lookupBeta theta (sorted beta gamma theta)) (lt_of_le_of_lt (hB.lookupBeta _ _) h3)
  obtain ⟨lg, e5⟩ := pick (B.lookupGamma theta (sorted beta gamma theta) lb)
    (lt_of_le_of_lt (hB.lookupGamma _ _ _) h4)
  obtain ⟨la, e6, e7⟩ := pick_list (B.lookupAlpha theta (sorted beta gamma theta) lb lg)
    (hB.lookupAlpha _ _ _ _) hF k
  obtain ⟨gt, e8⟩ := pick B.gateTheta (lt_of_le_of_lt hB.gateTheta h5)
  obtain ⟨as, e9, e10⟩ := pick_list (B.alpha beta gamma theta (sorted beta gamma theta) lb lg la (V beta gamma)
    (lookupV beta gamma theta lb lg la) gt) (hB.alpha _ _ _ _ _ _ _ _ _ _) hF 8
  obtain ⟨y, e11⟩ := pick (B.y beta gamma theta (sorted beta gamma theta) lb lg la (V beta gamma)
    (lookupV beta gamma theta lb lg la) gt as (chunks beta gamma theta lb lg la gt as)) (by
      refine lt_of_le_of_lt (hB.y _ _ _ _ _ _ _ _ _ _ _ _) (max_lt h6 (lt_of_le_of_lt ?_ h7))
      exact Nat.mul_le_mul_left _ (Nat.add_le_add_right (hq _ _ _ _ _ _ _ _) 1))
  exact ⟨⟨beta, gamma, theta, lb, lg, la, gt, as, y⟩, e6, e9,
    ⟨fun _ => e1, fun _ => e2, fun _ => e3, fun _ => e4, fun _ => e5, fun _ => e7, e8, e10, e11⟩⟩

end Crypto3Zk
