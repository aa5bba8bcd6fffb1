import Verif.Lemmas.PlaceholderTotal
import Verif.Lemmas.PlaceholderSoundRun

/-!
# Provers other than the honest one

A prover that commits to polynomials of its choice, each depending on the commitments made so far, can open
all of them at the points that the verifier asks for.
-/

set_option linter.unusedSectionVars false

namespace Crypto3Zk

open Polynomial

variable {F : Type} [Field F] [DecidableEq F] {S H Com Pr Data Obj : Type}
variable {L : FftLib F} {A n : Nat}
variable {C : CommScheme F S Com Pr Data Obj} {T : PlonkTranscript S F H Com}
  {fuel : Nat} {d : TableDesc} {c : Circuit F} {order : List PlonkVar} {delta : F}
  {mqc : Nat} {hash : H} {t : PlonkTable F} {pd : PublicData F H Com Data} {o0 : Obj}

/-- The commitments of a proof. -/
def proofCommitments (vcom : Com) (lcom pcom : Option Com) (qcom : Com) : OMap Com :=
  (putCommitment (putCommitment (OMap.insert [] VARIABLE_BATCH vcom) LOOKUP_BATCH lcom)
    PERMUTATION_BATCH pcom).insert QUOTIENT_BATCH qcom

theorem find_proofCommitments (vcom : Com) (lcom pcom : Option Com) (qcom : Com) :
    (proofCommitments vcom lcom pcom qcom).find VARIABLE_BATCH = some vcom ∧
    (proofCommitments vcom lcom pcom qcom).find LOOKUP_BATCH = lcom ∧
    (proofCommitments vcom lcom pcom qcom).find PERMUTATION_BATCH = pcom ∧
    (proofCommitments vcom lcom pcom qcom).find QUOTIENT_BATCH = some qcom ∧
    (proofCommitments vcom lcom pcom qcom).Sorted ∧
    ∀ k, k ≠ VARIABLE_BATCH → k ≠ LOOKUP_BATCH → k ≠ PERMUTATION_BATCH → k ≠ QUOTIENT_BATCH →
      (proofCommitments vcom lcom pcom qcom).find k = none := by
  unfold proofCommitments
  simp only [OMap.find_insert, find_putCommitment]
  refine ⟨by simp [OMap.find], ?_, ?_, by simp, ?_, ?_⟩
  · cases lcom <;> simp [OMap.find]
  · cases pcom <;> simp [OMap.find]
  · exact OMap.sorted_insert _ _ _ (sorted_putCommitment _ _ _ (sorted_putCommitment _ _ _
      (OMap.sorted_insert _ _ _ OMap.sorted_nil)))
  · intro k h1 h2 h3 h4
    rw [if_neg h4, if_neg (by tauto), if_neg (by tauto), if_neg h1]
    rfl

/-- What the prover commits to: `perm` (coefficients) and `vl` (values) in the batch of the permutation,
`sorted` (values) in the batch of the lookups, `chunks` (coefficients) in the batch of the quotient. Each may
depend on the commitments so far. -/
structure ProverStrategy (F Com : Type) where
  perm : Com → List (List F)
  sorted : Com → List (List F)
  vl : Com → Option Com → List (List F)
  chunks : Com → Option Com → Option Com → List (List F)

/-- The polynomials are as many and as long as they should be. -/
structure ProverStrategy.Fits (P : ProverStrategy F Com) (n : Nat) (c : Circuit F) (parts : Nat) : Prop where
  permLen : ∀ v, ∀ p ∈ P.perm v, p.length ≤ 2 ^ n
  sortedLen : ∀ v, ∀ p ∈ P.sorted v, p.length = 2 ^ n
  vlLen : ∀ v l, ∀ p ∈ P.vl v l, p.length = 2 ^ n
  chunksLen : ∀ v l p, ∀ x ∈ P.chunks v l p, x.length ≤ 2 ^ n
  copies : ∀ v, c.copies = [] ↔ P.perm v = []
  parts : ∀ v, (P.perm v).length = parts
  lookups : ∀ v l, c.lookups.gates = [] ↔ P.vl v l = []
  noLookups : ∀ v, c.lookups.gates = [] → P.sorted v = []

/-- Such a prover gets through, with the challenge and the transcript `chal` of the commitments at the end.
Which points can be opened may depend on the challenge, and nothing else is committed. -/
theorem any_prover_committed {Has : FriPoly F → List F → Prop} {maxLen : Nat} {okPoints : F → List F → Prop}
    {okSetup : S → Prop} (hT : C.Total Has maxLen) (hO : ∀ y, C.Opens Has maxLen (okPoints y) okSetup)
    (hC : ∀ y, C.Complete Has maxLen (okPoints y) okSetup) (hR : C.RootLaws) (hH : HasLaws L n Has) (hmax : 2 ^ n ≤ maxLen)
    (hS : PlaceholderSetup L A n fuel d c order t)
    (hp : PreFacts C T L n fuel d c order delta mqc hash t C.new pd o0)
    (hset : okSetup (T.key pd.common.hash pd.common.fixedCommitment))
    (P : ProverStrategy F Com) (hP : P.Fits n c pd.perm.parts)
    (chal : Com → Option Com → Option Com → Com → F × S) :
    ∃ (vcom : Com) (lcom pcom : Option Com) (qcom : Com),
      (c.lookups.gates ≠ [] → ∃ l, lcom = some l) ∧
      (c.copies ≠ [] ∨ c.lookups.gates ≠ [] → ∃ p, pcom = some p) ∧
      (c.lookups.gates = [] → lcom = none) ∧ (c.copies = [] → c.lookups.gates = [] → pcom = none) ∧
      ((∀ k i pts, verifierPoints L n d c pd.common (chal vcom lcom pcom qcom).1 = some pts →
          okPoints (chal vcom lcom pcom qcom).1 (lpcRequested k i pts)) →
        ∃ e : EvalStorage F × Pr,
          HonestStorage L n d c pd.common.rotations pd.perm.parts d.usableRows
            pd.common.permutedColumns.length (chal vcom lcom pcom qcom).1 pd.perm t (P.perm vcom)
            (P.sorted vcom) (P.vl vcom lcom) (P.chunks vcom lcom pcom) e.1 ∧
          ∃ pts v st', verifierPoints L n d c pd.common (chal vcom lcom pcom qcom).1 = some pts ∧
            C.run (C.setup o0 (T.key pd.common.hash pd.common.fixedCommitment) pd.common.schemeData).2
              (honestSizes c (honestPolys L pd.perm t (P.perm vcom) (P.sorted vcom) (P.vl vcom lcom)
                (P.chunks vcom lcom pcom)) ++ pts) = some v ∧
            C.verifyEval v e ((proofCommitments vcom lcom pcom qcom).insert FIXED_BATCH
              pd.common.fixedCommitment) (chal vcom lcom pcom qcom).2 = some (true, st')) := by
  have hL := hS.lib
  have hn := hS.small
  have hrows := hS.rows
  have husable := hS.usable
  obtain ⟨s1, s2, s3, s4, -, -, -, s8, s9, s10, s11, s12, s13⟩ := permPreprocess_shape hL hn hp.perm
  have hgl : pd.common.permutedColumns.length = order.length := length_mapM _ _ _ hp.indices
  have hlen : ∀ perm sorted vl chunks : List (List F), (∀ p ∈ perm, p.length ≤ 2 ^ n) →
      (∀ p ∈ sorted, p.length = 2 ^ n) → (∀ p ∈ vl, p.length = 2 ^ n) → (∀ p ∈ chunks, p.length ≤ 2 ^ n) →
      (c.copies = [] → perm = []) → (c.lookups.gates = [] → sorted = [] ∧ vl = []) →
      HonestLengths n c pd.perm t perm sorted vl chunks := fun perm sorted vl chunks h1 h2 h3 h4 h5 h6 =>
    ⟨s3, s4, s8, s9, hS.fits.rect, h1, h2, h3, h4, h5, h6⟩
  have hcalls := fun (perm sorted vl chunks : List (List F)) h =>
    honest_calls (c := c) (pre := pd.perm) (t := t) (perm := perm) (sorted := sorted) (vl := vl) (chunks := chunks)
      hL hn hH hmax h (pts := []) (by simp) (by simp) (by simp)
  generalize hs0 : C.setup o0 (T.key pd.common.hash pd.common.fixedCommitment) pd.common.schemeData = s0
  have hstep := fun (a b e : List (LpcOp F)) (o : Obj) hc ho =>
    CommScheme.Total.step hT (a := a) (b := b) (e := e) (pts := []) (o := o) hc hp.run hp.data ho
  rw [hs0] at hstep
  -- the columns
  obtain ⟨o1, -, r1, c1⟩ := hstep [] (variableCalls t) _ s0.2 (by
    have := hcalls [] [] [] [] (hlen _ _ _ _ (by simp) (by simp) (by simp) (by simp) (by simp) (by simp))
    unfold honestOps at this
    rw [List.nil_append]
    exact this) rfl
  rw [List.nil_append] at r1 c1
  obtain ⟨vcom, hvcom⟩ := c1 VARIABLE_BATCH (by simp [variableCalls])
  generalize hperm : P.perm vcom = perm
  generalize hsorted : P.sorted vcom = sorted
  have hpl := hP.permLen vcom
  have hsl := hP.sortedLen vcom
  have hcop := hP.copies vcom
  have hpp := hP.parts vcom
  rw [hperm] at hpl hcop hpp
  rw [hsorted] at hsl
  have hcopies := hcop.1
  -- the permutation argument
  obtain ⟨o2, q1, r2, -⟩ := hstep (variableCalls t) (perm.map fun p => .append PERMUTATION_BATCH [dfsOf L n p]) _ o1
    (by
      have := hcalls perm [] [] [] (hlen _ _ _ _ hpl (by simp) (by simp) (by simp) hcopies (by simp))
      unfold honestOps at this
      rw [List.append_assoc]
      exact this) r1
  -- the sorted columns
  obtain ⟨lcom, o3, r3, q3, hlc, hlroot⟩ : ∃ (lcom : Option Com) (o3 : Obj),
      C.run s0.2 ((variableCalls t ++ perm.map fun p => .append PERMUTATION_BATCH [dfsOf L n p]) ++
        (if c.lookups.gates ≠ [] then sortedOps sorted else [])) = some o3 ∧
      C.run o2 (if c.lookups.gates ≠ [] then sortedOps sorted else []) = some o3 ∧
      (c.lookups.gates ≠ [] → ∃ l, lcom = some l) ∧
      ((c.lookups.gates = [] ∧ lcom = none) ∨ (c.lookups.gates ≠ [] ∧ C.root o3 LOOKUP_BATCH = lcom)) := by
    by_cases h0 : c.lookups.gates = []
    · exact ⟨none, o2, by simpa [h0] using r2, by simp [h0, CommScheme.run], fun h => absurd h0 h, .inl ⟨h0, rfl⟩⟩
    · obtain ⟨oS, q1, q2, q3⟩ := hstep
          (variableCalls t ++ perm.map fun p => .append PERMUTATION_BATCH [dfsOf L n p])
          (sortedOps sorted) _ o2 (by
        have := hcalls perm sorted [] [] (hlen _ _ _ _ hpl hsl (by simp) (by simp) hcopies
          (fun h => absurd h h0))
        unfold honestOps at this
        rw [if_pos h0] at this
        rw [List.append_assoc, List.append_assoc]
        exact this) r2
      obtain ⟨lcom, hlcom⟩ := q3 LOOKUP_BATCH (by simp [sortedOps])
      exact ⟨some lcom, oS, by rw [if_pos h0]; exact q2, by rw [if_pos h0]; exact q1, fun _ => ⟨_, rfl⟩,
        .inr ⟨h0, hlcom⟩⟩
  generalize hvle : P.vl vcom lcom = vl
  have hvl := hP.vlLen vcom lcom
  have hlk := hP.lookups vcom lcom
  rw [hvle] at hvl hlk
  have hlookups : c.lookups.gates = [] → sorted = [] ∧ vl = [] := fun h =>
    ⟨by rw [← hsorted]; exact hP.noLookups _ h, hlk.1 h⟩
  -- the running product of the lookups
  obtain ⟨o4, q4, r4, -⟩ := hstep ((variableCalls t ++ perm.map fun p => .append PERMUTATION_BATCH [dfsOf L n p]) ++
        (if c.lookups.gates ≠ [] then sortedOps sorted else []))
      (vl.map fun p => .append PERMUTATION_BATCH [.dfs p]) _ o3
    (by
      have := hcalls perm sorted vl [] (hlen _ _ _ _ hpl hsl hvl (by simp) hcopies hlookups)
      unfold honestOps at this
      simp only [List.append_assoc]
      exact this) r3
  -- the commitment
  obtain ⟨pcom, o5, q5, r5, hpc, hproot⟩ : ∃ (pcom : Option Com) (o5 : Obj),
      C.run o4 (if c.copies ≠ [] ∨ c.lookups.gates ≠ [] then [.commit PERMUTATION_BATCH] else []) = some o5 ∧
      C.run s0.2 ((((variableCalls t ++ perm.map fun p => .append PERMUTATION_BATCH [dfsOf L n p]) ++
        (if c.lookups.gates ≠ [] then sortedOps sorted else [])) ++
          (vl.map fun p => .append PERMUTATION_BATCH [.dfs p])) ++
        (if c.copies ≠ [] ∨ c.lookups.gates ≠ [] then [.commit PERMUTATION_BATCH] else [])) = some o5 ∧
      (c.copies ≠ [] ∨ c.lookups.gates ≠ [] → ∃ p, pcom = some p) ∧
      ((¬ (c.copies ≠ [] ∨ c.lookups.gates ≠ []) ∧ pcom = none) ∨
        ((c.copies ≠ [] ∨ c.lookups.gates ≠ []) ∧ C.root o5 PERMUTATION_BATCH = pcom)) := by
    by_cases h0 : c.copies ≠ [] ∨ c.lookups.gates ≠ []
    · obtain ⟨o5, q1, q2, q3⟩ := hstep _ [.commit PERMUTATION_BATCH] _ o4 (by
        have := hcalls perm sorted vl [] (hlen _ _ _ _ hpl hsl hvl (by simp) hcopies hlookups)
        unfold honestOps at this
        rw [if_pos h0] at this
        simp only [List.append_assoc]
        exact this) r4
      obtain ⟨com, hcom⟩ := q3 PERMUTATION_BATCH (by simp)
      exact ⟨some com, o5, by rw [if_pos h0]; exact q1, by rw [if_pos h0]; exact q2, fun _ => ⟨_, rfl⟩,
        .inr ⟨h0, hcom⟩⟩
    · exact ⟨none, o4, by rw [if_neg h0]; rfl, by rw [if_neg h0, List.append_nil]; exact r4,
        fun h => absurd h h0, .inl ⟨h0, rfl⟩⟩
  -- the quotient
  generalize hche : P.chunks vcom lcom pcom = chunks
  have hck := hP.chunksLen vcom lcom pcom
  rw [hche] at hck
  have hl := hlen perm sorted vl chunks hpl hsl hvl hck hcopies hlookups
  have hcallsF := hcalls perm sorted vl chunks hl
  have hops : honestOps L n c t perm sorted vl chunks = ((((variableCalls t ++
      perm.map fun p => .append PERMUTATION_BATCH [dfsOf L n p]) ++
        (if c.lookups.gates ≠ [] then sortedOps sorted else [])) ++
          (vl.map fun p => .append PERMUTATION_BATCH [.dfs p])) ++
        (if c.copies ≠ [] ∨ c.lookups.gates ≠ [] then [.commit PERMUTATION_BATCH] else [])) ++
        [.append QUOTIENT_BATCH (chunks.map (chunkForm L)), .commit QUOTIENT_BATCH] := by
    unfold honestOps
    simp only [List.append_assoc]
    rfl
  obtain ⟨o6, q6, r6, c6⟩ := hstep _ [.append QUOTIENT_BATCH (chunks.map (chunkForm L)), .commit QUOTIENT_BATCH]
    [] o5 (by rw [List.append_nil, ← hops]; exact hcallsF) r5
  obtain ⟨qcom, hqcom⟩ := c6 QUOTIENT_BATCH (by simp)
  rw [← hops] at r6
  refine ⟨vcom, lcom, pcom, qcom, hlc, hpc, fun h => hlroot.elim (·.2) fun h' => absurd h h'.1,
    fun h h2 => hproot.elim (·.2) fun h' => absurd h'.1 (by simp [h, h2]), fun hok => ?_⟩
  rw [hperm, hsorted, hvle, hche]
  generalize hy : chal vcom lcom pcom qcom = y at hok ⊢
  -- the points
  obtain ⟨hrl, -, -, hmem⟩ := columnsRotations_spec d c _ hp.rotations
  have hvpts : verifierPoints L n d c pd.common y.1 =
      some (pointOps L n d c pd.common.rotations pd.perm.parts d.usableRows
        (pd.common.permutedColumns.length * 2 + 2) y.1) := by
    rw [verifierPoints_eq L n d c pd.common _ hrl, hp.parts, hp.desc]
  have hkinds : ∀ op ∈ pointOps L n d c pd.common.rotations pd.perm.parts d.usableRows
        (pd.common.permutedColumns.length * 2 + 2) y.1,
      (∃ k xs, op = .points k xs) ∨ ∃ k i xs, op = .pointsTo k i xs := pointOps_ops _ _ _ _ _ _ _ _ _
  obtain ⟨t1, t2⟩ := pointOps_there (L := L) (n := n) (c := c) (pre := pd.perm) (perm := perm) (sorted := sorted)
    (vl := vl) (chunks := chunks) (rotations := pd.common.rotations) (usable := d.usableRows) (y := y.1) hS.fits
    (s1.trans hgl.symm) (s2.trans hgl.symm) (fun h h' => h (hcop.2 h')) hpp (fun h h' => h (hlk.2 h'))
  obtain ⟨o7, r7, -⟩ := hT _ _ _ o0 _ _ (honest_calls hL hn hH hmax hl hkinds t1 t2) hp.run hp.data
  have hsess := honest_session hL hn hH hmax (okPoints := okPoints y.1) hl hkinds (fun k i _ => hok k i _ hvpts)
  obtain ⟨⟨e, st'⟩, he⟩ := Option.isSome_iff_exists.1 (hO y.1 _ _ _ _ _ hsess o0 o7 _ y.2 _ hp.run hp.data hset r7)
  obtain ⟨hfind, v, hv, hver⟩ := hC y.1 _ _ _ _ _ hsess o0 o7 _ _ st' _ _ hp.run hp.data hset r7 he
  rw [hs0] at r7 hv
  have r8 := r7
  rw [C.run_append, r6, Option.bind_some] at r8
  have hptsroot : ∀ k, C.root o7 k = C.root o6 k := fun k => hR.run k _ _ _ r8 (by
    intro hm
    rcases hkinds _ hm with ⟨_, _, h⟩ | ⟨_, _, _, h⟩ <;> cases h)
  have hsm : pd.common.permutedColumns.length ≤ d.width := by
    obtain ⟨σ, hfacts⟩ := (hS.permSetup hp).facts
    have h1 : pd.common.permutedColumns.toFinset ⊆ Finset.range (d.witness + d.publicInput + d.constant) := by
      intro x hx
      exact Finset.mem_range.2 (hfacts.bound x (List.mem_toFinset.1 hx))
    have h2 := Finset.card_le_card h1
    rw [List.toFinset_card_of_nodup hfacts.nodup, Finset.card_range] at h2
    unfold TableDesc.width
    omega
  refine ⟨e, ⟨hS.fits, hrl, hS.width, s1.trans hgl.symm, s2.trans hgl.symm, hsm,
    fun g hg => (hmem g hg 0).2 (Or.inl rfl), ?_⟩, _, v, st', hvpts, hv, ?_⟩
  · intro k hk
    apply hfind
    rw [List.mem_append, commit_mem_fixedOps, commit_mem_honestOps]
    tauto
  -- the commitments
  have e1 : C.root o7 VARIABLE_BATCH = some vcom := by
    have := r6
    rw [hops] at this
    simp only [List.append_assoc] at this
    rw [C.run_append, r1, Option.bind_some] at this
    rw [hptsroot, hR.run _ _ _ _ this, hvcom]
    intro hm
    have e1 : ∀ (P : Prop) [Decidable P] (l : List (LpcOp F)) (x : LpcOp F),
      x ∈ (if P then l else []) ↔ P ∧ x ∈ l := by intro P _ l x; split_ifs <;> simp_all
    simp [e1, sortedOps] at hm
  have e3 : C.root o7 QUOTIENT_BATCH = some qcom := by rw [hptsroot, hqcom]
  have e2 : (c.copies ≠ [] ∨ c.lookups.gates ≠ []) → C.root o7 PERMUTATION_BATCH = pcom := by
    intro h
    rcases hproot with ⟨h', -⟩ | ⟨-, h'⟩
    · exact absurd h h'
    · rw [hptsroot, hR.run _ _ _ _ q6 (by simp), h']
  have e4 : c.lookups.gates ≠ [] → C.root o7 LOOKUP_BATCH = lcom := by
    intro h
    rcases hlroot with ⟨h', -⟩ | ⟨-, h'⟩
    · exact absurd h' h
    · rw [hptsroot, hR.run _ _ _ _ q6 (by simp), hR.run _ _ _ _ q5 (by split_ifs <;> simp),
        hR.run _ _ _ _ q4 (by simp), h']
  have e0 : C.root o7 FIXED_BATCH = some pd.common.fixedCommitment := by
    rw [hptsroot, hR.run _ _ _ _ r6 (by rw [commit_mem_honestOps]; simp), ← hs0, hR.setup, hp.root]
  obtain ⟨f1, f2, f3, f4, f5, f6⟩ := find_proofCommitments vcom lcom pcom qcom
  refine hver _ (OMap.sorted_insert _ _ _ f5) fun k com => ?_
  rw [OMap.find_insert, List.mem_append, commit_mem_fixedOps, commit_mem_honestOps]
  by_cases hk0 : k = FIXED_BATCH
  · subst hk0
    rw [if_pos rfl, e0]
    simp
  rw [if_neg hk0]
  by_cases hk1 : k = VARIABLE_BATCH
  · subst hk1
    rw [f1, e1]; simp
  by_cases hk4 : k = LOOKUP_BATCH
  · subst hk4
    rw [f2]
    rcases hlroot with ⟨h', h''⟩ | ⟨h', -⟩
    · rw [h'']; simp [h']
    · rw [e4 h']; simp [h']
  by_cases hk2 : k = PERMUTATION_BATCH
  · subst hk2
    rw [f3]
    rcases hproot with ⟨h', h''⟩ | ⟨h', -⟩
    · rw [h'']; simp [h']
    · rw [e2 h']; simp [h']
  by_cases hk3 : k = QUOTIENT_BATCH
  · subst hk3
    rw [f4, e3]; simp
  · rw [f6 k hk1 hk4 hk2 hk3]
    simp only [reduceCtorEq, false_iff, not_and]
    intro hh
    rcases hh with h | h | ⟨-, h⟩ | ⟨-, h⟩ | h
    exacts [absurd h hk0, absurd h hk1, absurd h hk4, absurd h hk2, absurd h hk3]

/-- Such a prover gets through, with the challenge and the transcript `chal` of the commitments at the end.
Which points can be opened may depend on the challenge. -/
theorem any_prover_at {Has : FriPoly F → List F → Prop} {maxLen : Nat} {okPoints : F → List F → Prop}
    {okSetup : S → Prop} (hT : C.Total Has maxLen) (hO : ∀ y, C.Opens Has maxLen (okPoints y) okSetup)
    (hC : ∀ y, C.Complete Has maxLen (okPoints y) okSetup) (hR : C.RootLaws) (hH : HasLaws L n Has) (hmax : 2 ^ n ≤ maxLen)
    (hS : PlaceholderSetup L A n fuel d c order t)
    (hp : PreFacts C T L n fuel d c order delta mqc hash t C.new pd o0)
    (hset : okSetup (T.key pd.common.hash pd.common.fixedCommitment))
    (P : ProverStrategy F Com) (hP : P.Fits n c pd.perm.parts)
    (chal : Com → Option Com → Option Com → Com → F × S) :
    ∃ (vcom : Com) (lcom pcom : Option Com) (qcom : Com),
      (c.lookups.gates ≠ [] → ∃ l, lcom = some l) ∧
      (c.copies ≠ [] ∨ c.lookups.gates ≠ [] → ∃ p, pcom = some p) ∧
      ((∀ k i pts, verifierPoints L n d c pd.common (chal vcom lcom pcom qcom).1 = some pts →
          okPoints (chal vcom lcom pcom qcom).1 (lpcRequested k i pts)) →
        ∃ e : EvalStorage F × Pr,
          HonestStorage L n d c pd.common.rotations pd.perm.parts d.usableRows
            pd.common.permutedColumns.length (chal vcom lcom pcom qcom).1 pd.perm t (P.perm vcom)
            (P.sorted vcom) (P.vl vcom lcom) (P.chunks vcom lcom pcom) e.1 ∧
          ∃ pts v st', verifierPoints L n d c pd.common (chal vcom lcom pcom qcom).1 = some pts ∧
            C.run (C.setup o0 (T.key pd.common.hash pd.common.fixedCommitment) pd.common.schemeData).2
              (honestSizes c (honestPolys L pd.perm t (P.perm vcom) (P.sorted vcom) (P.vl vcom lcom)
                (P.chunks vcom lcom pcom)) ++ pts) = some v ∧
            C.verifyEval v e ((proofCommitments vcom lcom pcom qcom).insert FIXED_BATCH
              pd.common.fixedCommitment) (chal vcom lcom pcom qcom).2 = some (true, st')) := by
  obtain ⟨vcom, lcom, pcom, qcom, h1, h2, -, -, h⟩ :=
    any_prover_committed hT hO hC hR hH hmax hS hp hset P hP chal
  exact ⟨vcom, lcom, pcom, qcom, h1, h2, h⟩

/-- Such a prover gets through, with the challenge and the transcript `chal` of the commitments at the end. -/
theorem any_prover {Has : FriPoly F → List F → Prop} {maxLen : Nat} {okPoints : List F → Prop}
    {okSetup : S → Prop} (hT : C.Total Has maxLen) (hO : C.Opens Has maxLen okPoints okSetup)
    (hC : C.Complete Has maxLen okPoints okSetup) (hR : C.RootLaws) (hH : HasLaws L n Has) (hmax : 2 ^ n ≤ maxLen)
    (hS : PlaceholderSetup L A n fuel d c order t)
    (hp : PreFacts C T L n fuel d c order delta mqc hash t C.new pd o0)
    (hset : okSetup (T.key pd.common.hash pd.common.fixedCommitment))
    (P : ProverStrategy F Com) (hP : P.Fits n c pd.perm.parts)
    (chal : Com → Option Com → Option Com → Com → F × S) :
    ∃ (vcom : Com) (lcom pcom : Option Com) (qcom : Com),
      (c.lookups.gates ≠ [] → ∃ l, lcom = some l) ∧
      (c.copies ≠ [] ∨ c.lookups.gates ≠ [] → ∃ p, pcom = some p) ∧
      ((∀ k i pts, verifierPoints L n d c pd.common (chal vcom lcom pcom qcom).1 = some pts →
          okPoints (lpcRequested k i pts)) →
        ∃ e : EvalStorage F × Pr,
          HonestStorage L n d c pd.common.rotations pd.perm.parts d.usableRows
            pd.common.permutedColumns.length (chal vcom lcom pcom qcom).1 pd.perm t (P.perm vcom)
            (P.sorted vcom) (P.vl vcom lcom) (P.chunks vcom lcom pcom) e.1 ∧
          ∃ pts v st', verifierPoints L n d c pd.common (chal vcom lcom pcom qcom).1 = some pts ∧
            C.run (C.setup o0 (T.key pd.common.hash pd.common.fixedCommitment) pd.common.schemeData).2
              (honestSizes c (honestPolys L pd.perm t (P.perm vcom) (P.sorted vcom) (P.vl vcom lcom)
                (P.chunks vcom lcom pcom)) ++ pts) = some v ∧
            C.verifyEval v e ((proofCommitments vcom lcom pcom qcom).insert FIXED_BATCH
              pd.common.fixedCommitment) (chal vcom lcom pcom qcom).2 = some (true, st')) :=
  any_prover_at (okPoints := fun _ => okPoints) hT (fun _ => hO) (fun _ => hC) hR hH hmax hS hp hset P hP chal

end Crypto3Zk
