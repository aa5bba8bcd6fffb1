import Verif.Lemmas.PlaceholderQuotient
import Verif.Lemmas.PlaceholderComplete
import Verif.Props.PermutationArg
import Verif.Props.LookupArg
import Verif.Props.GateArg

/-!
# The placeholder prover gets through
-/

set_option linter.unusedSectionVars false

namespace Crypto3Zk

open Polynomial

variable {F : Type} [Field F] [DecidableEq F] {S H Com Pr Data Obj : Type}
variable {L : FftLib F} {A n : Nat}

/-! ## sequences of calls -/

/-- the batches committed by the calls, the last one first -/
def committedBy : List Nat → List (LpcOp F) → List Nat
  | done, [] => done
  | done, .commit k :: ops => committedBy (k :: done) ops
  | done, .append _ _ :: ops => committedBy done ops
  | done, .points _ _ :: ops => committedBy done ops
  | done, .pointsTo _ _ _ :: ops => committedBy done ops
  | done, .batchSize _ _ :: ops => committedBy done ops
  | done, .markFixed _ :: ops => committedBy done ops

theorem inOrder_append (a b : List (LpcOp F)) : ∀ done : List Nat,
    InOrder done (a ++ b) ↔ InOrder done a ∧ InOrder (committedBy done a) b := by
  induction a with
  | nil => intro done; simp [InOrder, committedBy]
  | cons op a ih =>
    intro done
    cases op <;> simp [InOrder, committedBy, ih, and_assoc]

theorem inOrder_appends {X : Type} (k : Nat) (f : X → List (FriPoly F)) (l : List X) (done : List Nat)
    (h : k ∉ done) : InOrder done (l.map fun x => LpcOp.append k (f x)) := by
  induction l with
  | nil => trivial
  | cons x l ih => exact ⟨h, ih⟩

theorem committedBy_appends {X : Type} (k : Nat) (f : X → List (FriPoly F)) (l : List X) (done : List Nat) :
    committedBy done (l.map fun x => LpcOp.append k (f x)) = done := by
  induction l with
  | nil => rfl
  | cons x l ih => exact ih

theorem ProverCalls.prefix {Has : FriPoly F → List F → Prop} {maxLen : Nat}
    {pre a b pts : List (LpcOp F)} (h : ProverCalls Has maxLen pre (a ++ b) pts) :
    ProverCalls Has maxLen pre a [] where
  preOps := h.preOps
  proverOps op hop := h.proverOps op (List.mem_append_left _ hop)
  polys k hk f hf := h.polys k (List.mem_append_left _ hk) f (by
    rw [← List.append_assoc, lpcAppended_append]
    exact List.mem_append_left _ hf)
  order := by
    have := h.order
    rw [← List.append_assoc, inOrder_append] at this
    exact this.1
  pointOps := by simp
  points := by simp
  pointsTo := by simp

theorem inOrder_honest (pre : PermData F) (c : Circuit F) (t : PlonkTable F)
    (perm sorted vl chunks : List (List F)) :
    InOrder [] (fixedOps L n pre t ++ honestOps L n c t perm sorted vl chunks) := by
  unfold fixedOps honestOps sortedOps
  by_cases h1 : c.lookups.gates = [] <;> by_cases h2 : c.copies = [] <;>
  simp [h1, h2, InOrder, committedBy, inOrder_append, inOrder_appends, committedBy_appends]

theorem honest_calls (hL : L.Lawful A) (hn : n ≤ A) {Has : FriPoly F → List F → Prop} (hH : HasLaws L n Has)
    {maxLen : Nat} (hmax : 2 ^ n ≤ maxLen) {c : Circuit F} {pre : PermData F}
    {t : PlonkTable F} {perm sorted vl chunks : List (List F)}
    (hl : HonestLengths n c pre t perm sorted vl chunks) {pts : List (LpcOp F)}
    (hpts : ∀ op ∈ pts, (∃ k xs, op = .points k xs) ∨ ∃ k i xs, op = .pointsTo k i xs)
    (hp1 : ∀ k xs, .points k xs ∈ pts →
      .commit k ∈ fixedOps L n pre t ++ honestOps L n c t perm sorted vl chunks)
    (hp2 : ∀ k i xs, .pointsTo k i xs ∈ pts →
      .commit k ∈ fixedOps L n pre t ++ honestOps L n c t perm sorted vl chunks ∧
      i < (honestPolys L pre t perm sorted vl chunks k).length) :
    ProverCalls Has maxLen (fixedOps L n pre t) (honestOps L n c t perm sorted vl chunks) pts := by
  have hs := honest_session hL hn hH hmax (okPoints := fun _ => True) hl hpts (fun _ _ _ => trivial)
  exact
    { preOps := hs.preOps
      proverOps := hs.proverOps
      polys := by
        intro k _ f hf
        have h1 := hs.polys k
        obtain ⟨i, hi, rfl⟩ := List.getElem_of_mem hf
        have hi' : i < (honestPolys L pre t perm sorted vl chunks k).length := h1.length_eq ▸ hi
        have h2 := (List.forall₂_iff_get.1 h1).2 i hi hi'
        exact ⟨_, h2, hs.degrees k _ (List.getElem_mem hi')⟩
      order := inOrder_honest _ _ _ _ _ _ _
      pointOps := hpts
      points := hp1
      pointsTo := by
        intro k i xs h
        obtain ⟨a, b⟩ := hp2 k i xs h
        exact ⟨a, by rw [(hs.polys k).length_eq]; exact b⟩ }

/-- the points asked for are those of polynomials that are there -/
theorem pointOps_there {c : Circuit F} {d : TableDesc} {pre : PermData F} {t : PlonkTable F}
    {perm sorted vl chunks : List (List F)} {rotations : List (List Int)} {parts usable m : Nat} {y : F}
    (hf : TableFits d n t) (h1 : pre.sId.length = m) (h2 : pre.sSigma.length = m)
    (h3 : c.copies ≠ [] → perm ≠ []) (h4 : perm.length = parts) (h5 : c.lookups.gates ≠ [] → vl ≠ []) :
    (∀ k xs, .points k xs ∈ pointOps L n d c rotations parts usable (m * 2 + 2) y →
      .commit k ∈ fixedOps L n pre t ++ honestOps L n c t perm sorted vl chunks) ∧
    (∀ k i xs, .pointsTo k i xs ∈ pointOps L n d c rotations parts usable (m * 2 + 2) y →
      .commit k ∈ fixedOps L n pre t ++ honestOps L n c t perm sorted vl chunks ∧
      i < (honestPolys L pre t perm sorted vl chunks k).length) := by
  have e1 : ∀ (P : Prop) [Decidable P] (l : List (LpcOp F)) (x : LpcOp F),
      x ∈ (if P then l else []) ↔ P ∧ x ∈ l := by intro P _ l x; split_ifs <;> simp_all
  have hw := hf.witness
  have hp := hf.publicInput
  have hc := hf.constant
  have hs := hf.selector
  have l0 : (honestPolys L pre t perm sorted vl chunks FIXED_BATCH).length =
      m * 2 + 2 + (d.constant + d.selector) := by
    simp only [honestPolys, List.length_append, List.length_map, List.length_cons, List.length_nil, h1, h2, hc, hs]
    omega
  have l1 : (honestPolys L pre t perm sorted vl chunks VARIABLE_BATCH).length = d.witness + d.publicInput := by
    simp only [honestPolys, List.length_append, List.length_map, hw, hp]
  have l2 : (honestPolys L pre t perm sorted vl chunks PERMUTATION_BATCH).length = perm.length + vl.length := by
    simp only [honestPolys, List.length_append, List.length_map]
  constructor
  · intro k xs h
    simp only [pointOps, List.mem_append, e1, List.mem_flatMap, List.mem_map, List.mem_cons, List.not_mem_nil,
      or_false, reduceCtorEq, and_false, exists_false, false_or, or_self, LpcOp.points.injEq] at h
    rw [List.mem_append, commit_mem_fixedOps, commit_mem_honestOps]
    tauto
  · intro k i xs h
    rw [List.mem_append, commit_mem_fixedOps, commit_mem_honestOps]
    simp only [pointOps, List.mem_append, e1, List.mem_flatMap, List.mem_map, List.mem_cons, List.not_mem_nil,
      or_false, reduceCtorEq, and_false, exists_false, false_or, or_self, LpcOp.pointsTo.injEq,
      List.mem_range] at h
    rcases h with (((((⟨j, hj, r, _, rfl, rfl, _⟩ | ⟨hc', rfl, rfl, _⟩) | ⟨hl', rfl, rfl, _⟩) |
      ⟨j, hj, rfl, rfl, _⟩) | (⟨rfl, rfl, _⟩ | ⟨rfl, rfl, _⟩)) | ⟨j, hj, r, _, rfl, rfl, _⟩)
    · exact ⟨.inr (.inl rfl), by rw [l1]; omega⟩
    · exact ⟨.inr (.inr (.inr (.inl ⟨.inl hc', rfl⟩))), by
        rw [l2]; have := List.length_pos_iff.2 (h3 hc'); omega⟩
    · exact ⟨.inr (.inr (.inr (.inl ⟨.inr hl', rfl⟩))), by
        rw [l2, h4]; have := List.length_pos_iff.2 (h5 hl'); omega⟩
    · exact ⟨.inl rfl, by rw [l0]; omega⟩
    · exact ⟨.inl rfl, by rw [l0]; omega⟩
    · exact ⟨.inl rfl, by rw [l0]; omega⟩
    · exact ⟨.inl rfl, by rw [l0]; omega⟩

/-! ## the run -/

variable {C : CommScheme F S Com Pr Data Obj} {T : PlonkTranscript S F H Com}
  {fuel : Nat} {d : TableDesc} {c : Circuit F} {order : List PlonkVar} {delta : F}
  {mqc : Nat} {hash : H} {t : PlonkTable F} {obj : Obj} {pd : PublicData F H Com Data} {o0 : Obj}

theorem CommScheme.Total.step {Has : FriPoly F → List F → Prop} {maxLen : Nat} (hC : C.Total Has maxLen)
    {pre a b e pts : List (LpcOp F)} {st : S} {data : Data} {o : Obj}
    (hcalls : ProverCalls Has maxLen pre ((a ++ b) ++ e) pts)
    (hpre : C.run C.new pre = some o0) (hdata : C.preprocess o0 st = some data)
    (ho : C.run (C.setup o0 st data).2 a = some o) :
    ∃ o', C.run o b = some o' ∧ C.run (C.setup o0 st data).2 (a ++ b) = some o' ∧
      ∀ k, LpcOp.commit k ∈ a ++ b → ∃ com, C.root o' k = some com := by
  obtain ⟨o', h1, h2⟩ := hC pre (a ++ b) [] o0 st data hcalls.prefix hpre hdata
  rw [List.append_nil] at h1
  have h3 := h1
  rw [C.run_append, ho] at h3
  exact ⟨o', h3, h1, h2⟩

theorem lookupProve_sorted {ch : S → F × S} {absorb : Com → S → S} {commit : List (List F) → Com}
    {sys : LookupSystem F} {pre : LookupData F} {st st' : S} {res : LookupResult F}
    (h : LookupSetup L A n t sys pre) (hp : lookupProve ch absorb commit L n t sys pre st = some (res, st')) :
    sortPolynomials (compressedInputs t sys n (ch st).1) (compressedValues t sys n pre.usable (ch st).1)
      (2 ^ n) pre.usable = some res.sorted := by
  obtain ⟨theta, beta, gamma, alphas, alphas3, values, inputs, gg, hh, R⟩ :=
    lookupProve_run ch absorb commit n t sys pre st st' res hp
  have hs := R.h_sorted
  rw [R.valueRows h, R.inputRows h, R.h_theta] at hs
  exact hs

/-- The prover gets as far as the opening. -/
theorem prover_reaches_opening {Has : FriPoly F → List F → Prop} {maxLen : Nat} (hC : C.Total Has maxLen)
    (hH : HasLaws L n Has) (hmax : 2 ^ n ≤ maxLen) (hS : PlaceholderSetup L A n fuel d c order t)
    (hp : PreFacts C T L n fuel d c order delta mqc hash t C.new pd o0)
    (hdeg : DegreesFit c) (hlim : LookupsWithinLimit c mqc) (s0 : S × Obj)
    (hs0 : s0 = C.setup o0 (T.key pd.common.hash pd.common.fixedCommitment) pd.common.schemeData)
    (hP : c.copies ≠ [] →
      ∀ vcom, (C.run s0.2 (variableCalls t)).bind (C.root · VARIABLE_BATCH) = some vcom →
      ∃ r, permProve T.challenge L n pd.perm (fun i => (t.column i).map L.coefficients)
        pd.common.permutedColumns (T.absorb vcom s0.1) = some r)
    (hT : c.lookups.gates ≠ [] →
      ∀ vcom, (C.run s0.2 (variableCalls t)).bind (C.root · VARIABLE_BATCH) = some vcom →
      Sortable (compressedInputs t c.lookups n (lookupTheta T c pd.perm.parts vcom s0.1))
        (compressedValues t c.lookups n d.usableRows (lookupTheta T c pd.perm.parts vcom s0.1)) (2 ^ n)
        d.usableRows)
    (hLk : c.lookups.gates ≠ [] →
      ∀ vcom, (C.run s0.2 (variableCalls t)).bind (C.root · VARIABLE_BATCH) = some vcom →
      ∀ obj, (∃ perm : List (FriPoly F), C.run s0.2
        (variableCalls t ++ perm.map fun p => .append PERMUTATION_BATCH [p]) = some obj) →
      ∀ sorted, sortPolynomials (compressedInputs t c.lookups n (lookupTheta T c pd.perm.parts vcom s0.1))
        (compressedValues t c.lookups n d.usableRows (lookupTheta T c pd.perm.parts vcom s0.1)) (2 ^ n)
          d.usableRows = some sorted →
      ∀ lcom, (C.run obj (sortedOps sorted)).bind (C.root · LOOKUP_BATCH) = some lcom →
      ∃ r, lookupProve T.challenge (fun (com : Option Com) st => com.elim st (T.absorb · st))
        (fun sorted => (C.run obj (sortedOps sorted)).bind (C.root · LOOKUP_BATCH)) L n t c.lookups
        (lookupData pd.perm) (lookupStart T c pd.perm.parts vcom s0.1) = some r) :
    ∃ (perm sorted vl chunks : List (List F)) (pts : List (LpcOp F)) (y : F) (o : Obj) (st : S)
      (coms : OMap Com), HonestLengths n c pd.perm t perm sorted vl chunks ∧
      verifierPoints L n d c pd.common y = some pts ∧
      (∀ op ∈ pts, (∃ k xs, op = .points k xs) ∨ ∃ k i xs, op = .pointsTo k i xs) ∧
      C.run s0.2 (honestOps L n c t perm sorted vl chunks ++ pts) = some o ∧
      (∀ (Pr' : Type) (pe : Obj → S → Option ((EvalStorage F × Pr') × S)),
        placeholderProve (C.withOpening pe) T L n d c order pd t o0 =
          (pe o st).map fun e => ⟨coms, y, e.1⟩) ∧
      placeholderProve C T L n d c order pd t o0 = (C.proofEval o st).map fun e => ⟨coms, y, e.1⟩ := by
  have hL := hS.lib
  have hn := hS.small
  have hrows := hS.rows
  have husable := hS.usable
  obtain ⟨s1, s2, s3, s4, -, -, -, s8, s9, s10, s11, s12, s13⟩ := permPreprocess_shape hL hn hp.perm
  have hu : pd.perm.usableRows ≤ 2 ^ n := by omega
  have hgl : pd.common.permutedColumns.length = order.length := length_mapM _ _ _ hp.indices
  have hlen : ∀ perm sorted vl chunks : List (List F), (∀ p ∈ perm, p.length ≤ 2 ^ n) →
      (∀ p ∈ sorted, p.length = 2 ^ n) → (∀ p ∈ vl, p.length = 2 ^ n) → (∀ p ∈ chunks, p.length ≤ 2 ^ n) →
      (c.copies = [] → perm = []) → (c.lookups.gates = [] → sorted = [] ∧ vl = []) →
      HonestLengths n c pd.perm t perm sorted vl chunks := fun perm sorted vl chunks h1 h2 h3 h4 h5 h6 =>
    ⟨s3, s4, s8, s9, hS.fits.rect, h1, h2, h3, h4, h5, h6⟩
  have hcalls := fun (perm sorted vl chunks : List (List F)) h =>
    honest_calls (c := c) (pre := pd.perm) (t := t) (perm := perm) (sorted := sorted) (vl := vl) (chunks := chunks)
      hL hn hH hmax h (pts := []) (by simp) (by simp) (by simp)
  have hstep := fun (a b e : List (LpcOp F)) (o : Obj) hc ho =>
    CommScheme.Total.step hC (a := a) (b := b) (e := e) (pts := []) (o := o) hc hp.run hp.data ho
  rw [← hs0] at hstep
  -- the columns
  obtain ⟨o1, -, r1, c1⟩ := hstep [] (variableCalls t) _ s0.2 (by
    have := hcalls [] [] [] [] (hlen _ _ _ _ (by simp) (by simp) (by simp) (by simp) (by simp) (by simp))
    unfold honestOps at this
    rw [List.nil_append]
    exact this) rfl
  rw [List.nil_append] at r1 c1
  obtain ⟨vcom, hvcom⟩ := c1 VARIABLE_BATCH (by simp [variableCalls])
  have hv : (C.run s0.2 (variableCalls t)).bind (C.root · VARIABLE_BATCH) = some vcom := by
    rw [r1]; exact hvcom
  -- the permutation argument
  obtain ⟨perm, fp, o2, hperm, r2, hparts, hstage1, hcop⟩ : ∃ (perm : List (List F)) (fp : F[X] × F[X] × F[X])
      (o2 : Obj), (∀ p ∈ perm, p.length ≤ 2 ^ n) ∧
      C.run s0.2 (variableCalls t ++ perm.map fun p => .append PERMUTATION_BATCH [dfsOf L n p]) = some o2 ∧
      perm.length = pd.perm.parts ∧
      permStage C T L n d c order pd.perm t o1 (T.absorb vcom s0.1) =
        some (fp, o2, lookupStart T c pd.perm.parts vcom s0.1) ∧
      ((c.copies = [] ∧ perm = []) ∨ (c.copies ≠ [] ∧ perm ≠ [])) := by
    by_cases h0 : c.copies = []
    · have ho : order = [] := by
        rw [List.eq_nil_iff_forall_not_mem]
        intro v hv
        have := (hS.members v).1 hv
        rw [h0] at this
        simp [permutedVars] at this
      refine ⟨[], (0, 0, 0), o1, by simp, by simpa using r1, ?_, ?_, .inl ⟨h0, rfl⟩⟩
      · rw [ho] at s13
        simp [permutationParts] at s13
        simp [s13]
      · unfold permStage lookupStart
        rw [if_neg (by simp [h0]), if_pos h0]
    · obtain ⟨⟨res, st'⟩, hr⟩ := hP h0 vcom hv
      obtain ⟨k1, k2, k3, k4, -, -, -, k8⟩ := permProve_shape hL hn _ _ hu _ _ _ _ _ hr
      have hpl : ∀ p ∈ res.V :: res.partitions, p.length ≤ 2 ^ n := by
        intro p hp'
        rcases List.mem_cons.1 hp' with rfl | hp'
        · exact k1
        · exact k2 p hp'
      obtain ⟨o2, q1, q2, -⟩ := hstep (variableCalls t) ((res.V :: res.partitions).map fun p =>
          .append PERMUTATION_BATCH [dfsOf L n p]) _ o1 (by
        have := hcalls (res.V :: res.partitions) [] [] []
          (hlen _ _ _ _ hpl (by simp) (by simp) (by simp) (fun h => absurd h h0) (by simp))
        unfold honestOps at this
        rw [List.append_assoc]
        exact this) r1
      refine ⟨res.V :: res.partitions, (toPoly res.F0, toPoly res.F1, toPoly res.F2), o2, hpl, q2, ?_, ?_,
        .inr ⟨h0, by simp⟩⟩
      · rw [List.length_cons, k3]; omega
      · unfold permStage lookupStart
        rw [if_pos (List.length_pos_iff.2 h0), if_neg h0, hp.indices]
        simp only [Option.bind_eq_bind, Option.bind_some, hr]
        rw [List.map_cons] at q1
        rw [q1]
        simp only [Option.bind_some, k8, Nat.add_comm 2]
        rfl
  have hcopies : c.copies = [] → perm = [] := fun h => by
    rcases hcop with ⟨-, h'⟩ | ⟨h', -⟩
    · exact h'
    · exact absurd h h'
  -- the lookup argument
  obtain ⟨sorted, vl, fl, lcom, o3, st2, hsl, hvl, r3, hstage2, hlk⟩ : ∃ (sorted vl : List (List F))
      (fl : F[X] × F[X] × F[X] × F[X]) (lcom : Option Com) (o3 : Obj) (st2 : S),
      (∀ p ∈ sorted, p.length = 2 ^ n) ∧ (∀ p ∈ vl, p.length = 2 ^ n) ∧
      C.run s0.2 ((variableCalls t ++ perm.map fun p => .append PERMUTATION_BATCH [dfsOf L n p]) ++
        ((if c.lookups.gates ≠ [] then sortedOps sorted else []) ++
          (vl.map fun p => .append PERMUTATION_BATCH [.dfs p]))) = some o3 ∧
      lookupStage C T L n c pd.perm t o2 (lookupStart T c pd.perm.parts vcom s0.1) = some (fl, lcom, o3, st2) ∧
      ((c.lookups.gates = [] ∧ sorted = [] ∧ vl = []) ∨ (c.lookups.gates ≠ [] ∧ vl ≠ [])) := by
    by_cases h0 : c.lookups.gates = []
    · refine ⟨[], [], (0, 0, 0, 0), none, o2, lookupStart T c pd.perm.parts vcom s0.1, by simp, by simp, by simpa [h0] using r2, ?_,
        .inl ⟨h0, rfl, rfl⟩⟩
      unfold lookupStage
      rw [if_neg (by simp [h0])]
    · have hsort := hT h0 vcom hv
      obtain ⟨sorted, hsorted⟩ : ∃ sorted, sortPolynomials
          (compressedInputs t c.lookups n (lookupTheta T c pd.perm.parts vcom s0.1))
          (compressedValues t c.lookups n d.usableRows (lookupTheta T c pd.perm.parts vcom s0.1)) (2 ^ n)
          d.usableRows = some sorted := ⟨_, sortPolynomials_eq hsort⟩
      have hsl : ∀ p ∈ sorted, p.length = 2 ^ n := by
        intro p hp'
        rw [sortPolynomials_eq hsort, Option.some_inj] at hsorted
        rw [← hsorted] at hp'
        exact length_finished_col _ _ hp'
      obtain ⟨oS, q1, q2, q3⟩ := hstep
          (variableCalls t ++ perm.map fun p => .append PERMUTATION_BATCH [dfsOf L n p])
          (sortedOps sorted) _ o2 (by
        have := hcalls perm sorted [] [] (hlen _ _ _ _ hperm hsl (by simp) (by simp) hcopies
          (fun h => absurd h h0))
        unfold honestOps at this
        rw [if_pos h0] at this
        rw [List.append_assoc, List.append_assoc]
        exact this) r2
      obtain ⟨lcom, hlcom⟩ := q3 LOOKUP_BATCH (by simp [sortedOps])
      have hcom : (C.run o2 (sortedOps sorted)).bind (C.root · LOOKUP_BATCH) = some lcom := by
        rw [q1]; exact hlcom
      obtain ⟨⟨res, st2⟩, hr⟩ := hLk h0 vcom hv o2 ⟨perm.map (dfsOf L n), by
        rw [List.map_map]; exact r2⟩ sorted hsorted lcom hcom
      have hset := hS.lookupSetup hp h0
      have hus : (lookupData pd.perm).usable = d.usableRows := s11
      have hs' := lookupProve_sorted hset hr
      have htheta : (T.challenge (lookupStart T c pd.perm.parts vcom s0.1)).1 =
        lookupTheta T c pd.perm.parts vcom s0.1 := rfl
      rw [htheta, hus, hsorted, Option.some_inj] at hs'
      obtain ⟨-, v1, v2, -⟩ := lookupProve_shape hset (by rw [htheta, hus]; exact hsort) hr
      have hvl : ∀ p ∈ res.V :: res.partitions, p.length = 2 ^ n := by
        intro p hp'
        rcases List.mem_cons.1 hp' with rfl | hp'
        · exact v1
        · exact v2 p hp'
      obtain ⟨o3, w1, w2, -⟩ := hstep ((variableCalls t ++
          perm.map fun p => .append PERMUTATION_BATCH [dfsOf L n p]) ++ sortedOps sorted)
          ((res.V :: res.partitions).map fun p => .append PERMUTATION_BATCH [.dfs p]) _ oS (by
        have := hcalls perm sorted (res.V :: res.partitions) [] (hlen _ _ _ _ hperm hsl hvl (by simp) hcopies
          (fun h => absurd h h0))
        unfold honestOps at this
        rw [if_pos h0] at this
        rw [List.append_assoc, List.append_assoc, List.append_assoc]
        exact this) q2
      refine ⟨sorted, res.V :: res.partitions, (res.F0, res.F1, res.F2, res.F3), some lcom, o3, st2, hsl, hvl,
        ?_, ?_, .inr ⟨h0, by simp⟩⟩
      · rw [if_pos h0, ← List.append_assoc]; exact w2
      · unfold lookupStage
        rw [if_pos (List.length_pos_iff.2 h0)]
        simp only [Option.bind_eq_bind, hr, Option.bind_some, ← hs', q1, hlcom]
        rw [List.map_cons] at w1
        rw [w1]
        rfl
  have hlookups : c.lookups.gates = [] → sorted = [] ∧ vl = [] := fun h => by
    rcases hlk with ⟨-, h'⟩ | ⟨h', -⟩
    · exact h'
    · exact absurd h h'
  -- the commitment
  obtain ⟨pcom, o4, st3, r4, hstage3⟩ : ∃ (pcom : Option Com) (o4 : Obj) (st3 : S),
      C.run s0.2 (((variableCalls t ++ perm.map fun p => .append PERMUTATION_BATCH [dfsOf L n p]) ++
        ((if c.lookups.gates ≠ [] then sortedOps sorted else []) ++
          (vl.map fun p => .append PERMUTATION_BATCH [.dfs p]))) ++
        (if c.copies ≠ [] ∨ c.lookups.gates ≠ [] then [.commit PERMUTATION_BATCH] else [])) = some o4 ∧
      permCommitStage C T c o3 st2 = some (pcom, o4, st3) := by
    by_cases h0 : c.copies ≠ [] ∨ c.lookups.gates ≠ []
    · obtain ⟨o4, q1, q2, q3⟩ := hstep _ [.commit PERMUTATION_BATCH] _ o3 (by
        have := hcalls perm sorted vl [] (hlen _ _ _ _ hperm hsl hvl (by simp) hcopies hlookups)
        unfold honestOps at this
        rw [if_pos h0] at this
        rw [List.append_assoc, List.append_assoc, List.append_assoc, List.append_assoc]
        exact this) r3
      obtain ⟨com, hcom⟩ := q3 PERMUTATION_BATCH (by simp)
      refine ⟨some com, o4, T.absorb com st2, by rw [if_pos h0]; exact q2, ?_⟩
      unfold permCommitStage
      rw [if_pos (h0.imp List.length_pos_iff.2 List.length_pos_iff.2)]
      rw [C.run_one] at q1
      simp only [Option.bind_eq_bind, q1, Option.bind_some, hcom]
    · refine ⟨none, o3, st2, by rw [if_neg h0, List.append_nil]; exact r3, ?_⟩
      unfold permCommitStage
      rw [if_neg (fun h => h0 (h.imp List.length_pos_iff.1 List.length_pos_iff.1))]
  -- the gates and the quotient
  obtain ⟨fg, hgate⟩ := C34_prover_succeeds hS.gateSetup T.challenge
    (gateMask (toPoly pd.perm.qLast) (toPoly pd.perm.qBlind)) st3
  rw [← hp.degree] at hgate
  have hsort2 : c.lookups.gates ≠ [] → Sortable (compressedInputs t c.lookups n
        (T.challenge (lookupStart T c pd.perm.parts vcom s0.1)).1)
      (compressedValues t c.lookups n d.usableRows
        (T.challenge (lookupStart T c pd.perm.parts vcom s0.1)).1) (2 ^ n) d.usableRows :=
    fun h => hT h vcom hv
  obtain ⟨chunks, hchunks⟩ := Option.isSome_iff_exists.1 (quotient_fits hS hp hdeg hlim hstage1 hstage2 hsort2 hgate
    (drawN T.challenge 8 (T.challenge st3).2).1)
  have hck : ∀ p ∈ chunks, p.length ≤ 2 ^ n := by
    rw [← hrows]
    exact (C36_prover_chunks _ _ _ _ _ _ _ hchunks).2.1
  have hcallsF := hcalls perm sorted vl chunks (hlen _ _ _ _ hperm hsl hvl hck hcopies hlookups)
  have hops : honestOps L n c t perm sorted vl chunks = ((((variableCalls t ++
      perm.map fun p => .append PERMUTATION_BATCH [dfsOf L n p]) ++
        ((if c.lookups.gates ≠ [] then sortedOps sorted else []) ++
          (vl.map fun p => .append PERMUTATION_BATCH [.dfs p]))) ++
        (if c.copies ≠ [] ∨ c.lookups.gates ≠ [] then [.commit PERMUTATION_BATCH] else [])) ++
        [.append QUOTIENT_BATCH (chunks.map (chunkForm L)), .commit QUOTIENT_BATCH]) := by
    unfold honestOps
    simp only [List.append_assoc]
    rfl
  obtain ⟨o5, q1, q2, q3⟩ := hstep _ [.append QUOTIENT_BATCH (chunks.map (chunkForm L)), .commit QUOTIENT_BATCH]
    [] o4 (by rw [List.append_nil, ← hops]; exact hcallsF) r4
  obtain ⟨qcom, hqcom⟩ := q3 QUOTIENT_BATCH (by simp)
  rw [← hops] at q2
  -- the points
  obtain ⟨hrl, -⟩ := columnsRotations_spec d c _ hp.rotations
  set y := T.challenge (T.absorb qcom (drawN T.challenge 8 (T.challenge st3).2).2) with hy
  have hpts : proverPoints L n d c pd.perm pd.common t.selectors.length y.1 =
      some (pointOps L n d c pd.common.rotations pd.perm.parts d.usableRows
        (pd.common.permutedColumns.length * 2 + 2) y.1) := by
    rw [hS.fits.selector, proverPoints_eq L n d c pd.perm pd.common _ hrl, s1, s2, hp.parts, hp.desc, hgl,
      Nat.mul_two]
  have hvpts : verifierPoints L n d c pd.common y.1 =
      some (pointOps L n d c pd.common.rotations pd.perm.parts d.usableRows
        (pd.common.permutedColumns.length * 2 + 2) y.1) := by
    rw [verifierPoints_eq L n d c pd.common _ hrl, hp.parts, hp.desc]
  have hkinds := proverPoints_ops hpts
  obtain ⟨t1, t2⟩ := pointOps_there (L := L) (n := n) (c := c) (pre := pd.perm) (perm := perm) (sorted := sorted)
    (vl := vl) (chunks := chunks) (rotations := pd.common.rotations) (usable := d.usableRows) (y := y.1) hS.fits
    (s1.trans hgl.symm) (s2.trans hgl.symm)
    (fun h => by rcases hcop with ⟨h', -⟩ | ⟨-, h'⟩; exact absurd h' h; exact h') hparts
    (fun h => by rcases hlk with ⟨h', -⟩ | ⟨-, h'⟩; exact absurd h' h; exact h')
  obtain ⟨o6, r6, -⟩ := hC _ _ _ o0 _ _ (honest_calls hL hn hH hmax
    (hlen perm sorted vl chunks hperm hsl hvl hck hcopies hlookups) hkinds t1 t2) hp.run hp.data
  rw [← hs0] at r6
  have r7 := r6
  rw [C.run_append, q2, Option.bind_some] at r7
  have main : ∀ (Pr' : Type) (C' : CommScheme F S Com Pr' Data Obj), C'.apply = C.apply → C'.root = C.root →
      C'.setup = C.setup → placeholderProve C' T L n d c order pd t o0 = (C'.proofEval o6 y.2).map fun e =>
        ⟨(putCommitment (putCommitment (OMap.insert [] VARIABLE_BATCH vcom) LOOKUP_BATCH lcom)
          PERMUTATION_BATCH pcom).insert QUOTIENT_BATCH qcom, y.1, e.1⟩ := by
    intro Pr' C' e1 e2 e3
    have erun : C'.run = C.run := by
      funext o ops
      unfold CommScheme.run
      rw [e1]
    have g1 : permStage C' T L n d c order pd.perm t = permStage C T L n d c order pd.perm t := by
      funext o st
      unfold permStage
      rw [erun]
    have g2 : lookupStage C' T L n c pd.perm t = lookupStage C T L n c pd.perm t := by
      funext o st
      unfold lookupStage
      rw [erun, e2]
    have g3 : permCommitStage C' T c = permCommitStage C T c := by
      funext o st
      unfold permCommitStage
      rw [e1, e2]
    unfold placeholderProve
    rw [erun, e2, e3, g1, g2, g3, ← hs0]
    have r1' : C.run s0.2 [.append VARIABLE_BATCH (t.witnesses.map .dfs),
      .append VARIABLE_BATCH (t.publicInputs.map .dfs), .commit VARIABLE_BATCH] = some o1 := r1
    simp only [Option.bind_eq_bind, r1', Option.bind_some, hvcom, hstage1, hstage2, hstage3, hgate, hchunks, q1,
      hqcom, ← hy, hpts, r7]
    cases C'.proofEval o6 y.2 <;> rfl
  exact ⟨perm, sorted, vl, chunks, _, y.1, o6, y.2, _,
    hlen perm sorted vl chunks hperm hsl hvl hck hcopies hlookups, hvpts, hkinds, r6,
    fun Pr' pe => main Pr' (C.withOpening pe) rfl rfl rfl, main _ C rfl rfl rfl⟩

end Crypto3Zk
