import Verif.Lemmas.PartsPolys
import Verif.Spec.PlaceholderParts

/-!
# What an accepted proof says, for any number of parts

As `Lemmas/PlaceholderSoundRun`.
-/

set_option linter.unusedSectionVars false

namespace Crypto3Zk

open Polynomial

variable {F : Type} [Field F] [DecidableEq F] {S H Com Pr Data Obj : Type}
variable {L : FftLib F} {A n fuel : Nat} {d : TableDesc} {c : Circuit F} {order : List PlonkVar}
  {t t0 : PlonkTable F} {delta : F} {mqc : Nat}
variable {C : CommScheme F S Com Pr Data Obj} {T : PlonkTranscript S F H Com} {hash : H} {obj o0 : Obj}
  {pd : PublicData F H Com Data} {proof : PlaceholderProof F Com Pr} {m : PartsMessages F} {chunks : List (List F)}

/-- The opened values, as a storage. -/
theorem OpenedParts.storage (hS : PlaceholderSetup L A n fuel d c order t)
    (hp : PreFacts C T L n fuel d c order delta mqc hash t obj pd o0)
    (ho : OpenedParts L n d c pd.common pd.perm t m chunks proof) :
    HonestStorage L n d c pd.common.rotations pd.perm.parts d.usableRows pd.common.permutedColumns.length
      proof.challenge pd.perm t (if c.copies = [] then [] else m.V :: m.partitions) m.sorted
      (if c.lookups.gates = [] then [] else m.lookupV :: m.lookupPartitions) chunks proof.eval.1 := by
  obtain ⟨hrl, -, -, hmem⟩ := columnsRotations_spec d c _ hp.rotations
  obtain ⟨s1, s2, -⟩ := permPreprocess_shape hS.lib hS.small hp.perm
  have hg : pd.common.permutedColumns.length = order.length := length_mapM _ _ _ hp.indices
  obtain ⟨σ, hfacts⟩ := (hS.permSetup hp).facts
  have hsm : pd.common.permutedColumns.length ≤ d.width := by
    have h1 : pd.common.permutedColumns.toFinset ⊆ Finset.range (d.witness + d.publicInput + d.constant) := by
      intro x hx
      exact Finset.mem_range.2 (hfacts.bound x (List.mem_toFinset.1 hx))
    have h2 := Finset.card_le_card h1
    rw [List.toFinset_card_of_nodup hfacts.nodup, Finset.card_range] at h2
    unfold TableDesc.width
    omega
  refine ⟨hS.fits, hrl, hS.width, by omega, by omega, hsm, fun g hg => (hmem g hg 0).2 (Or.inl rfl), ?_⟩
  intro k hk
  have h2 := verifierPoints_eq L n d c pd.common proof.challenge hrl
  rw [hp.parts, hp.desc] at h2
  rw [ho _ h2 k hk]
  congr 2
  rcases hk with rfl | rfl | ⟨-, rfl⟩ | ⟨-, rfl⟩ | rfl
  · simp [committedParts, honestPolys, FIXED_BATCH]
  · simp [committedParts, honestPolys, FIXED_BATCH, VARIABLE_BATCH]
  · simp [committedParts, honestPolys, FIXED_BATCH, VARIABLE_BATCH, LOOKUP_BATCH, PERMUTATION_BATCH,
      QUOTIENT_BATCH]
  · simp only [committedParts, honestPolys, FIXED_BATCH, VARIABLE_BATCH, PERMUTATION_BATCH]
    by_cases h : c.lookups.gates = [] <;> simp [h]
  · simp [committedParts, honestPolys, FIXED_BATCH, VARIABLE_BATCH, PERMUTATION_BATCH, QUOTIENT_BATCH]

/-- Acceptance gives the final equation, for polynomials whose values are those the arguments compute. -/
theorem accepted_parts_equation (hS : PlaceholderSetup L A n fuel d c order t)
    (hp : PreFacts C T L n fuel d c order delta mqc hash t obj pd o0)
    (hm : m.Sized n c mqc pd.perm.parts)
    (ho : OpenedParts L n d c pd.common pd.perm t m chunks proof)
    (hacc : placeholderVerify C T L n true d c pd.common proof o0 = some true)
    {vcom lcom pcom qcom : Com} (hv : proof.commitments.find VARIABLE_BATCH = some vcom)
    (hlc : c.lookups.gates ≠ [] → proof.commitments.find LOOKUP_BATCH = some lcom)
    (hpc : c.copies ≠ [] ∨ c.lookups.gates ≠ [] → proof.commitments.find PERMUTATION_BATCH = some pcom)
    (hqc : proof.commitments.find QUOTIENT_BATCH = some qcom)
    {x : PartsChallenges F} (hx : x = readPartsChallenges T c pd.perm.parts (c.lookups.parts mqc).length m.sorted.length vcom lcom pcom qcom
      (C.setup o0 (T.key pd.common.hash pd.common.fixedCommitment) pd.common.schemeData).1)
    {cols : List (List F)}
    (hcols : pd.common.permutedColumns.mapM (fun i => (t.column i).map L.coefficients) = some cols)
    {p0 p1 p2 : F[X]} (hp0 : c.copies = [] → p0 = 0 ∧ p1 = 0 ∧ p2 = 0)
    (hperm : c.copies ≠ [] → ∀ (S : Type) (ch : S → F × S) (st : S) (y : F), (ch st).1 = x.early.beta →
      (ch (ch st).2).1 = x.early.gamma →
      (drawN ch (pd.perm.parts - 1) (ch (ch st).2).2).1 = x.early.parts → permVerify ch pd.perm.lagrange0 pd.perm.mqc pd.perm.parts
        (trueClaims L n pd.perm cols m.V m.partitions y) y st =
          some ((p0.eval y, p1.eval y, p2.eval y), (drawN ch (pd.perm.parts - 1) (ch (ch st).2).2).2))
    {l0 l1 l2 l3 : F[X]} (hl0 : c.lookups.gates = [] → l0 = 0 ∧ l1 = 0 ∧ l2 = 0 ∧ l3 = 0)
    (hlook : c.lookups.gates ≠ [] → ∀ (S Com : Type) (ch : S → F × S) (absorb : Com → S → S) (com : Com)
      (st : S) (y : F) (ev : Nat → Int → ColumnType → Option F), TrueLookupEvaluations L n t c.lookups y ev →
      (ch st).1 = x.early.theta → (ch (absorb com (ch st).2)).1 = x.early.lookupBeta →
      (ch (ch (absorb com (ch st).2)).2).1 = x.early.lookupGamma →
      (drawN ch ((c.lookups.parts (lookupData pd.perm).mqc).length - 1)
        (ch (ch (absorb com (ch st).2)).2).2).1 = x.early.lookupParts →
      (drawN ch (m.sorted.length - 1) (drawN ch ((c.lookups.parts (lookupData pd.perm).mqc).length - 1)
        (ch (ch (absorb com (ch st).2)).2).2).2).1 = x.early.lookupAlphas →
      lookupVerify ch absorb com c.lookups (lookupData pd.perm).mqc ev
        (trueLookupClaims L n (lookupData pd.perm) m.sorted m.lookupV m.lookupPartitions y) st =
        some ((l0.eval y, l1.eval y, l2.eval y, l3.eval y),
          (drawN ch (m.sorted.length - 1) (drawN ch ((c.lookups.parts (lookupData pd.perm).mqc).length - 1)
            (ch (ch (absorb com (ch st).2)).2).2).2).2))
    {g : F[X]} (hgate : ∀ (S : Type) (ch : S → F × S) (st : S) (y : F)
      (ev : Nat → Int → ColumnType → Option F), (ch st).1 = x.early.gateTheta → TrueEvaluations L n t c.gates y ev →
      gateVerify ch c.gates ev ((rowMask L n d.usableRows).eval y) st = some (g.eval y, (ch st).2)) :
    x.y = proof.challenge ∧
      FinalEquation (2 ^ n) x.alphas ([p0, p1, p2, l0, l1, l2, l3, g].map (eval x.y))
        (chunks.map (evalPoly · x.y)) x.y := by
  have hz := ho.storage hS hp
  obtain ⟨s1, s2, s3, s4, q1, q2, q3, -, -, -, s11, s12, s13⟩ := permPreprocess_shape hS.lib hS.small hp.perm
  have hperml : (if c.copies = [] then ([] : List (List F)) else m.V :: m.partitions).length = pd.perm.parts := by
    by_cases h : c.copies = []
    · rw [order_nil hS h] at s13
      simp only [permutationParts, List.length_nil, if_true, Option.some.injEq] at s13
      rw [if_pos h, ← s13]; rfl
    · rw [if_neg h, ← hm.count h]; rfl
  obtain ⟨k, hk1, hk2⟩ := hz.permSize
  obtain ⟨ev, hev1, hev2⟩ := hz.columnsAtY_eq
  obtain ⟨hte, htl⟩ := hS.evaluations hp hev2
  obtain ⟨hq1, hq2⟩ := hz.quotient
  have hgm : 1 - evalPoly pd.perm.qLast proof.challenge - evalPoly pd.perm.qBlind proof.challenge =
      (rowMask L n d.usableRows).eval proof.challenge := by
    rw [q1, q2]
    simp [rowMask, gateMask, dfsPoly, eval_toPoly]
  unfold placeholderVerify at hacc
  obtain ⟨v', hv', hacc⟩ := Option.bind_eq_some_iff.1 hacc
  obtain rfl : vcom = v' := Option.some_inj.1 (hv.symm.trans hv')
  obtain ⟨ql', hql', hacc⟩ := Option.bind_eq_some_iff.1 hacc
  obtain rfl := Option.some_inj.1 (hz.qLast.1.symm.trans hql')
  obtain ⟨qb', hqb', hacc⟩ := Option.bind_eq_some_iff.1 hacc
  obtain rfl := Option.some_inj.1 (hz.qBlind.1.symm.trans hqb')
  obtain ⟨k', hk', hacc⟩ := Option.bind_eq_some_iff.1 hacc
  obtain rfl := Option.some_inj.1 (hk1.symm.trans hk')
  rw [hk2, hp.lagrange0] at hacc
  obtain ⟨⟨fp, st1⟩, hfp, hacc⟩ := ite_back hacc
  obtain ⟨ev', hev', hacc⟩ := Option.bind_eq_some_iff.1 hacc
  obtain rfl := Option.some_inj.1 (hev1.symm.trans hev')
  obtain ⟨⟨fl, st2⟩, hfl, hacc⟩ := ite_back2 hacc
  obtain ⟨st3, hst3, hacc⟩ := ite_back hacc
  obtain ⟨⟨fg, st4⟩, hfg, hacc⟩ := Option.bind_eq_some_iff.1 hacc
  obtain ⟨qc', hqc', hacc⟩ := Option.bind_eq_some_iff.1 hacc
  obtain rfl := Option.some_inj.1 (hqc.symm.trans hqc')
  subst hx
  set s0 := T.absorb vcom (C.setup o0 (T.key pd.common.hash pd.common.fixedCommitment) pd.common.schemeData).1
    with hs0
  -- the permutation argument
  have eperm : fp = (p0.eval proof.challenge, p1.eval proof.challenge, p2.eval proof.challenge) ∧
      st1 = if c.copies = [] then s0 else (drawN T.challenge (pd.perm.parts - 1) (T.challenge (T.challenge s0).2).2).2 := by
    by_cases h1 : c.copies = []
    · rw [if_neg (by simp [h1]), Option.some_inj, Prod.mk.injEq] at hfp
      obtain ⟨a, b, e⟩ := hp0 h1
      rw [if_pos h1, ← hfp.1, ← hfp.2, a, b, e]
      simp
    · rw [if_pos (List.length_pos_iff.2 h1),
        hz.permClaims (common := pd.common) (V := m.V) (partitions := m.partitions) rfl hp.parts rfl hcols (by rw [if_neg h1])
          (by have := hm.count h1; omega) h1 (by have := hm.count h1; omega)] at hfp
      simp only [Option.bind_eq_bind, Option.bind_some] at hfp
      rw [hp.mqcEq, hp.parts, ← s12, hperm h1 S T.challenge _ proof.challenge rfl rfl rfl, Option.some_inj,
        Prod.mk.injEq] at hfp
      rw [if_neg h1]
      exact ⟨hfp.1.symm, hfp.2.symm⟩
  obtain ⟨rfl, rfl⟩ := eperm
  set s1 := (if c.copies = [] then s0 else (drawN T.challenge (pd.perm.parts - 1) (T.challenge (T.challenge s0).2).2).2) with hs1
  -- the lookup argument
  have elook : fl = (l0.eval proof.challenge, l1.eval proof.challenge,
      l2.eval proof.challenge, l3.eval proof.challenge) ∧
      st2 = if c.lookups.gates = [] then s1 else (drawN T.challenge (m.sorted.length - 1)
        (drawN T.challenge ((c.lookups.parts mqc).length - 1)
          (T.challenge (T.challenge (T.absorb lcom (T.challenge s1).2)).2).2).2).2 := by
    by_cases h1 : c.lookups.gates = []
    · rw [if_neg (by simp [h1]), Option.some_inj, Prod.mk.injEq] at hfl
      obtain ⟨a, b, e, f⟩ := hl0 h1
      rw [if_pos h1, ← hfl.1, ← hfl.2, a, b, e, f]
      simp
    · rw [if_pos (List.length_pos_iff.2 h1), hlc h1,
        hz.lookupClaims (common := pd.common) (mqc := mqc) (V := m.lookupV) (partitions := m.lookupPartitions) hp.parts hperml rfl
          hp.lookupParts (by rw [if_neg h1]) (by have := hm.lookupCount h1; omega) h1 s11] at hfl
      simp only [Option.bind_eq_bind, Option.bind_some] at hfl
      have e := hlook h1 S Com T.challenge T.absorb lcom s1 proof.challenge ev (htl h1) rfl rfl rfl
        (by rw [show (lookupData pd.perm).mqc = pd.perm.mqc from rfl, s12]; rfl)
        (by rw [show (lookupData pd.perm).mqc = pd.perm.mqc from rfl, s12]; rfl)
      rw [show (lookupData pd.perm).mqc = pd.perm.mqc from rfl, s12, ← hp.mqcEq] at e
      rw [e] at hfl
      rw [Option.some_inj, Prod.mk.injEq] at hfl
      rw [if_neg h1]
      refine ⟨hfl.1.symm, hfl.2.symm.trans ?_⟩
      rw [hp.mqcEq]
  obtain ⟨rfl, rfl⟩ := elook
  set s2 := (if c.lookups.gates = [] then s1 else (drawN T.challenge (m.sorted.length - 1)
        (drawN T.challenge ((c.lookups.parts mqc).length - 1)
          (T.challenge (T.challenge (T.absorb lcom (T.challenge s1).2)).2).2).2).2) with hs2
  have epc : st3 = if c.copies = [] ∧ c.lookups.gates = [] then s2 else T.absorb pcom s2 := by
    by_cases h1 : c.copies = [] ∧ c.lookups.gates = []
    · rw [if_neg (by simp [h1.1, h1.2]), Option.some_inj] at hst3
      rw [if_pos h1, hst3]
    · have h2 : c.copies ≠ [] ∨ c.lookups.gates ≠ [] := not_and_or.1 h1
      rw [if_pos (h2.imp List.length_pos_iff.2 List.length_pos_iff.2), hpc h2] at hst3
      rw [if_neg h1]
      exact (Option.some_inj.1 hst3).symm
  subst epc
  set s3 := (if c.copies = [] ∧ c.lookups.gates = [] then s2 else T.absorb pcom s2) with hs3
  rw [hgm, hgate S T.challenge _ proof.challenge ev rfl hte, Option.some_inj, Prod.mk.injEq] at hfg
  obtain ⟨rfl, rfl⟩ := hfg
  have ey : (readPartsChallenges T c pd.perm.parts (c.lookups.parts mqc).length m.sorted.length vcom lcom pcom qcom
      (C.setup o0 (T.key pd.common.hash pd.common.fixedCommitment) pd.common.schemeData).1).y =
      (T.challenge (T.absorb qcom (drawN T.challenge 8 (T.challenge s3).2).2)).1 := rfl
  have ea : (readPartsChallenges T c pd.perm.parts (c.lookups.parts mqc).length m.sorted.length vcom lcom pcom qcom
      (C.setup o0 (T.key pd.common.hash pd.common.fixedCommitment) pd.common.schemeData).1).alphas =
      (drawN T.challenge 8 (T.challenge s3).2).1 := rfl
  rw [ey, ea]
  generalize T.challenge (T.absorb qcom (drawN T.challenge 8 (T.challenge s3).2).2) = yy at hacc ⊢
  obtain ⟨y1, y2⟩ := yy
  by_cases hy : y1 = proof.challenge
  swap
  · exact absurd ((if_pos ⟨rfl, hy⟩).symm.trans hacc) (by simp)
  subst hy
  have hacc := (if_neg (by simp)).symm.trans hacc
  obtain ⟨_, -, hacc⟩ := Option.bind_eq_some_iff.1 hacc
  obtain ⟨_, -, hacc⟩ := Option.bind_eq_some_iff.1 hacc
  obtain ⟨_, -, hacc⟩ := Option.bind_eq_some_iff.1 hacc
  obtain ⟨⟨ok, _⟩, -, hacc⟩ := Option.bind_eq_some_iff.1 hacc
  dsimp only at hacc
  cases ok with
  | false => exact absurd hacc (by simp)
  | true =>
    rw [if_pos rfl] at hacc
    obtain ⟨q, hq, hacc⟩ := Option.bind_eq_some_iff.1 hacc
    obtain rfl := Option.some_inj.1 (hq1.symm.trans hq)
    obtain ⟨ts, hts, hacc⟩ := Option.bind_eq_some_iff.1 hacc
    obtain rfl := Option.some_inj.1 (hq2.symm.trans hts)
    refine ⟨rfl, ?_⟩
    have := of_decide_eq_true (Option.some_inj.1 hacc)
    rw [hp.desc, hS.rows, hp.Z] at this
    exact this

end Crypto3Zk
