import Verif.Lemmas.Equality
import Verif.Props.FRI
import Verif.Props.LookupArg

/-!
# C92, C93 and C94: comparisons and counters

Parameters, proofs and constraint systems that compare equal can be used in place of each other, except
that the comparison of proofs leaves out the proof of work.
-/

namespace Crypto3Zk

set_option linter.unusedSectionVars false

section fri
variable {F : Type} [Field F] [DecidableEq F] {L : FftLib F} {A : Nat}
variable {Root Path Tree S : Type} [DecidableEq Root] [DecidableEq Path]

/-! ## C92 -/

/-- C92: parameters compare equal exactly when all their settings agree (the grinding parameter only if
there is grinding) and the expand factor does too. In particular domains are the same although only one of
their elements is compared. -/
theorem C92_params_eq_iff (hL : L.Lawful A) (p q : FriParams F) (hp : p.LibDomains L A)
    (hq : q.LibDomains L A) (e e' : Nat) : p.eqv q e e' = true ↔ p.SameSettings q ∧ e = e' :=
  paramsEqv_iff hL p q hp hq e e'

/-- C92: with parameters that compare equal, the verifier of FRI gives the same verdict and leaves the same
transcript, for every proof, true or not. -/
theorem C92_params_same_verdict (hL : L.Lawful A) (p q : FriParams F) (hp : p.LibDomains L A)
    (hq : q.LibDomains L A) (hm : p.modulus = q.modulus) (e e' : Nat) (h : p.eqv q e e' = true)
    (M : MerkleLib F Tree Root Path) (T : FriTranscript S F Root) (proof : FriProof F Root Path)
    (commitments : OMap Root) (theta : F) (items : List (List (Nat × Nat) × F × List F)) (st : S) :
    friVerify M T p proof commitments theta items st = friVerify M T q proof commitments theta items st :=
  friVerify_same M T ((paramsEqv_iff hL p q hp hq e e').1 h).1 hm proof commitments theta items st

/-- C92: and so do the verifier of LPC and the placeholder verifier on top of it. -/
theorem C92_params_same_verdict_lpc (hL : L.Lawful A) (p q : FriParams F) (hp : p.LibDomains L A)
    (hq : q.LibDomains L A) (hm : p.modulus = q.modulus) (e e' : Nat) (h : p.eqv q e e' = true)
    (M : MerkleLib F Tree Root Path) (T : FriTranscript S F Root) (v : LpcScheme F Tree)
    (proof : EvalStorage F × FriProof F Root Path) (commitments : OMap Root) (st : S) :
    v.verifyEval M T p proof commitments st = v.verifyEval M T q proof commitments st := by
  unfold LpcScheme.verifyEval
  simp only [C92_params_same_verdict hL p q hp hq hm e e' h]

/-- C92: FRI proofs compare equal exactly when they differ at most in the proof of work. -/
theorem C92_proof_eq_iff (a b : FriProof F Root Path) : a.eqv b = true ↔ a.SameButNonce b :=
  proofEqv_iff a b

/-- C92 in part: without grinding, FRI proofs that compare equal get the same verdict. Missing: with grinding
this is false, see `C92_grinding_verdicts_differ`. -/
theorem C92_proof_same_verdict_partial (p : FriParams F) (hp : p.useGrinding = false)
    (a b : FriProof F Root Path) (h : a.eqv b = true) (M : MerkleLib F Tree Root Path)
    (T : FriTranscript S F Root) (commitments : OMap Root) (theta : F)
    (items : List (List (Nat × Nat) × F × List F)) (st : S) :
    friVerify M T p a commitments theta items st = friVerify M T p b commitments theta items st :=
  friVerify_nonce M T p hp ((proofEqv_iff a b).1 h) commitments theta items st

/-- C92 in part: without grinding, placeholder proofs that compare equal get the same verdict, for every
circuit, table description, public input and preprocessed data. -/
theorem C92_placeholder_same_verdict_partial {H : Type} (prm : FriParams F) (hp : prm.useGrinding = false)
    (a b : PlaceholderProof F Root (FriProof F Root Path)) (h : a.eqv b = true)
    (M : MerkleLib F Tree Root Path) (TF : FriTranscript S F Root) (dfs : Bool) (fuel nonce : Nat)
    (T : PlonkTranscript S F H Root) (n : Nat) (asserts : Bool) (d : TableDesc) (c : Circuit F)
    (common : CommonData F H Root (OMap (List F))) (obj : LpcScheme F Tree) (publicInput : List (List F)) :
    placeholderVerifyPublic (lpcComm L M TF prm dfs fuel nonce) T L n asserts d c common a obj publicInput =
      placeholderVerifyPublic (lpcComm L M TF prm dfs fuel nonce) T L n asserts d c common b obj
        publicInput := by
  obtain ⟨ca, ya, za, pa⟩ := a
  obtain ⟨cb, yb, zb, pb⟩ := b
  simp only [PlaceholderProof.eqv, lpcProofEq, Bool.and_eq_true, decide_eq_true_eq] at h
  obtain ⟨rfl, rfl, h, rfl⟩ := h
  have hv : ∀ (o : LpcScheme F Tree) (coms : OMap Root) (st : S),
      (lpcComm L M TF prm dfs fuel nonce).verifyEval o (za, pa) coms st =
        (lpcComm L M TF prm dfs fuel nonce).verifyEval o (za, pb) coms st := by
    intro o coms st
    show o.verifyEval M TF prm (za, pa) coms st = o.verifyEval M TF prm (za, pb) coms st
    unfold LpcScheme.verifyEval
    simp only [C92_proof_same_verdict_partial prm hp pa pb h]
  unfold placeholderVerifyPublic placeholderVerify
  simp only [hv]

/-- C92: an accepted proof compares equal to the same proof with any other proof of work. If the verifier
asks for a proof of work, it rejects the copy as soon as the other nonce does not do the work. -/
theorem C92_nonce_not_compared (p : FriParams F) (hp : p.useGrinding = true) (a : FriProof F Root Path)
    (M : MerkleLib F Tree Root Path) (T : FriTranscript S F Root) (commitments : OMap Root) (theta : F)
    (items : List (List (Nat × Nat) × F × List F)) (st st1 st2 : S) (alphas : List F)
    (h : friVerify M T p a commitments theta items st = some (true, st2))
    (ha : friAlphas T p.stepList a.friRoots st = some (st1, alphas)) (nonce : Nat)
    (hn : (powVerify T.toIntTranscript p.grindingParameter st1 nonce).1 = false) :
    a.eqv { a with proofOfWork := nonce } = true ∧
      ∃ st3, friVerify M T p { a with proofOfWork := nonce } commitments theta items st =
        some (false, st3) := by
  refine ⟨(proofEqv_iff _ _).2 ⟨rfl, rfl, rfl⟩, ?_⟩
  unfold friVerify at h ⊢
  by_cases h1 : checkStepList p.stepList p.r = true
  · rw [if_pos h1] at h ⊢
    by_cases h2 : friDegreeOk p a.finalPolynomial = true
    · rw [if_pos h2] at h ⊢
      rw [ha]
      refine ⟨(powVerify T.toIntTranscript p.grindingParameter st1 nonce).2, ?_⟩
      simp [hp, hn]
    · rw [if_neg h2] at h
      simp at h
  · rw [if_neg h1] at h
    simp at h

end fri

/-! ### a run with grinding -/

/-- a transcript that adds up what it absorbs -/
def exGrindTranscript : FriTranscript Nat (ZMod 17) (List (List (ZMod 17))) where
  absorb := fun s b => s + (b.map UInt8.toNat).sum
  intChallenge := fun s => (s + 1, s)
  absorbRoot := fun s r => s + r.length
  challenge := fun s => (s + 1, ((s % 16 + 1 : Nat) : ZMod 17))

/-- the parameters of the example for C43, with a proof of work of one bit -/
def exGrindParams : FriParams (ZMod 17) :=
  FriParams.ofStepList (FftLib.ofRoots exRoots17) 17 [1, 1] 2 3 1 true 1

/-- the proof the prover makes -/
def exGrindProof : FriProof (ZMod 17) (List (List (ZMod 17))) (List (List (ZMod 17)) × Nat) :=
  ((friProve (FftLib.ofRoots exRoots17) (listMerkle (ZMod 17)) exGrindTranscript exGrindParams
    [(0, [.coeff [3, 5, 1]])] (.coeff [12, 1]) [(0, exFriTree)] exFriQTree 10 0 0).map Prod.fst).getD
      ⟨[], [], [], 0⟩

/-- C92 is false with grinding: two proofs that compare equal, of which the verifier accepts one and rejects
the other. -/
theorem C92_grinding_verdicts_differ :
    ∃ a b : FriProof (ZMod 17) (List (List (ZMod 17))) (List (List (ZMod 17)) × Nat), a.eqv b = true ∧
      (friVerify (listMerkle (ZMod 17)) exGrindTranscript exGrindParams a [(0, exFriTree)] 1 exFriItems 0).map
        Prod.fst = some true ∧
      (friVerify (listMerkle (ZMod 17)) exGrindTranscript exGrindParams b [(0, exFriTree)] 1 exFriItems 0).map
        Prod.fst = some false :=
  ⟨exGrindProof, { exGrindProof with proofOfWork := exGrindProof.proofOfWork + 1 },
    (proofEqv_iff _ _).2 ⟨rfl, rfl, rfl⟩, by decide +kernel, by decide +kernel⟩

/-- The hypotheses on parameters are met; these two compare equal, though their grinding parameters
differ. -/
example : exFriParams.LibDomains (FftLib.ofRoots exRoots17) 4 ∧
    exFriParams.eqv { exFriParams with grindingParameter := 7 } 1 1 = true ∧
    exFriParams.eqv exGrindParams 1 1 = false := by
  refine ⟨?_, by decide +kernel, by decide +kernel⟩
  intro D hD
  simp only [exFriParams, FriParams.ofStepList, FftLib.domainSet, List.mem_map, List.mem_range] at hD
  obtain ⟨i, hi, rfl⟩ := hD
  exact ⟨2 + 1 - i, by omega, rfl⟩

section plonk
variable {F : Type} [Field F] [DecidableEq F]

/-! ## C93 -/

/-- C93: constraint systems compare equal exactly when they have the same gates, copy constraints, lookup
gates, lookup tables and public input sizes, in the same order, up to the order of the variables inside
terms. -/
theorem C93_eq_iff (a b : Circuit F) : a.eqv b = true ↔ SameCircuit a b := circuitEqv_iff a b

/-- C93: `==` on constraint systems is an equivalence relation. -/
theorem C93_equivalence :
    (∀ a : Circuit F, a.eqv a = true) ∧ (∀ a b : Circuit F, a.eqv b = true → b.eqv a = true) ∧
      ∀ a b c : Circuit F, a.eqv b = true → b.eqv c = true → a.eqv c = true := by
  have hr : ∀ es : List (Expr PlonkVar F), SameExprs es es := fun es => by
    refine List.forall₂_same.2 fun e _ => ?_
    exact (Expr.beq_iff e e).1 (C08_eq_equivalence.1 e)
  have ht : ∀ {es fs gs : List (Expr PlonkVar F)}, SameExprs es fs → SameExprs fs gs → SameExprs es gs := by
    intro es fs gs h h'
    unfold SameExprs at h h' ⊢
    induction h generalizing gs with
    | nil => cases h'; exact .nil
    | cons h _ ih =>
      cases h' with
      | cons h' hs' =>
        exact .cons ((Expr.beq_iff _ _).1 (C08_eq_equivalence.2.2 _ _ _ ((Expr.beq_iff _ _).2 h)
          ((Expr.beq_iff _ _).2 h'))) (ih hs')
  have htr : ∀ {α : Type} {r : α → α → Prop}, (∀ x y z, r x y → r y z → r x z) →
      ∀ {as bs cs : List α}, List.Forall₂ r as bs → List.Forall₂ r bs cs → List.Forall₂ r as cs := by
    intro α r hr as bs cs h h'
    induction h generalizing cs with
    | nil => cases h'; exact .nil
    | cons h _ ih =>
      cases h' with
      | cons h' hs' => exact .cons (hr _ _ _ h h') (ih hs')
  refine ⟨fun a => (circuitEqv_iff a a).2 ?_,
    fun a b h => (circuitEqv_iff b a).2 ((circuitEqv_iff a b).1 h).symm, fun a b c h h' => ?_⟩
  · exact ⟨List.forall₂_same.2 fun g _ => ⟨rfl, hr _⟩, rfl,
      List.forall₂_same.2 fun g _ => ⟨rfl, List.forall₂_same.2 fun c _ => ⟨rfl, hr _⟩⟩, rfl, rfl⟩
  · have h := (circuitEqv_iff a b).1 h
    have h' := (circuitEqv_iff b c).1 h'
    refine (circuitEqv_iff a c).2 ⟨htr ?_ h.gates h'.gates, h.copies.trans h'.copies,
      htr ?_ h.lookupGates h'.lookupGates, h.tables.trans h'.tables, h.sizes.trans h'.sizes⟩
    · exact fun x y z hx hy => ⟨hx.1.trans hy.1, ht hx.2 hy.2⟩
    · exact fun x y z hx hy => ⟨hx.1.trans hy.1,
        htr (fun x y z hx hy => ⟨hx.1.trans hy.1, ht hx.2 hy.2⟩) hx.2 hy.2⟩

theorem gatesHold_of {t : PlonkTable F} {gs hs : List (Gate F)} {usable : Nat}
    (h : List.Forall₂ (fun g h : Gate F => g.selectorIndex = h.selectorIndex ∧
      SameExprs g.constraints h.constraints) gs hs) (hg : GatesHold t gs usable) : GatesHold t hs usable := by
  intro j hj g hg' hs' c hc
  obtain ⟨i, hi, rfl⟩ := List.getElem_of_mem hg'
  obtain ⟨k, hk, rfl⟩ := List.getElem_of_mem hc
  have hl := h.length_eq
  have hp := (List.forall₂_iff_get.1 h).2 i (by omega) hi
  have hlc := hp.2.length_eq
  have hpc := (List.forall₂_iff_get.1 hp.2).2 k (by simp at hlc ⊢; omega) hk
  have := hg j hj gs[i] (List.getElem_mem _) (by
      have e := hp.1
      simp only [List.get_eq_getElem] at e
      rw [e]; exact hs') _
    (List.getElem_mem (n := k) (by simp at hlc ⊢; omega))
  rw [← this]
  exact (evalM_same _ hpc).symm

theorem lookupsHold_of {t : PlonkTable F} {a b : Circuit F} {usable : Nat} (h : SameCircuit a b)
    (hg : LookupsHold t a.lookups usable) : LookupsHold t b.lookups usable := by
  intro j hj g hg' hs' c hc
  obtain ⟨i, hi, rfl⟩ := List.getElem_of_mem hg'
  obtain ⟨k, hk, rfl⟩ := List.getElem_of_mem hc
  have hl := h.lookupGates.length_eq
  have hp := (List.forall₂_iff_get.1 h.lookupGates).2 i (by omega) hi
  have hlc := hp.2.length_eq
  have hpc := (List.forall₂_iff_get.1 hp.2).2 k (by simp at hlc ⊢; omega) hk
  obtain ⟨k', tab, h1, h2, o, ho, i', hi', h3, h4⟩ := hg j hj a.lookups.gates[i] (List.getElem_mem _)
    (by
      have e := hp.1
      simp only [List.get_eq_getElem] at e
      rw [e]; exact hs') _ (List.getElem_mem (n := k) (by simp at hlc ⊢; omega))
  refine ⟨k', tab, by rw [← h.tables]; exact h1, ?_, o, ho, i', hi', h3, ?_⟩
  · rw [← h2]; exact hpc.1.symm
  · rw [← h4]
    exact (map_forall₂ (hpc.2.imp fun e f he => evalM_same _ he)).symm

/-- C93: constraint systems that compare equal are satisfied by the same tables: the gates, the copy
constraints and the lookups hold for one exactly when they hold for the other. -/
theorem C93_same_tables (a b : Circuit F) (h : a.eqv b = true) (d : TableDesc) (t : PlonkTable F)
    (usable : Nat) (val : Nat → Int → F) :
    (GatesHold t a.gates usable ↔ GatesHold t b.gates usable) ∧
      (CopiesHold d a.copies val ↔ CopiesHold d b.copies val) ∧
      (LookupsHold t a.lookups usable ↔ LookupsHold t b.lookups usable) := by
  have h := (circuitEqv_iff a b).1 h
  exact ⟨⟨gatesHold_of h.gates, gatesHold_of h.symm.gates⟩, by rw [h.copies],
    ⟨lookupsHold_of h, lookupsHold_of h.symm⟩⟩

variable {S H Com Pr Data Obj : Type}

/-- C93: the preprocessor makes the same data of constraint systems that compare equal (if their hashes are the
same). -/
theorem C93_same_preprocessing (a b : Circuit F) (h : a.eqv b = true)
    (C : CommScheme F S Com Pr Data Obj) (T : PlonkTranscript S F H Com) (L : FftLib F) (n fuel : Nat)
    (d : TableDesc) (order : List PlonkVar) (delta : F) (mqc : Nat) (hash : H) (t : PlonkTable F)
    (obj : Obj) :
    placeholderPreprocess C T L n fuel d a order delta mqc hash t obj =
      placeholderPreprocess C T L n fuel d b order delta mqc hash t obj :=
  ((circuitEqv_iff a b).1 h).preprocess_eq C T L n fuel d order delta mqc hash t obj

/-- C93: the verifier gives the same verdict for constraint systems that compare equal, on every proof and
public input. -/
theorem C93_same_verdict (a b : Circuit F) (h : a.eqv b = true) (C : CommScheme F S Com Pr Data Obj)
    (T : PlonkTranscript S F H Com) (L : FftLib F) (n : Nat) (asserts : Bool) (d : TableDesc)
    (common : CommonData F H Com Data) (proof : PlaceholderProof F Com Pr) (obj : Obj)
    (publicInput : List (List F)) :
    placeholderVerifyPublic C T L n asserts d a common proof obj publicInput =
      placeholderVerifyPublic C T L n asserts d b common proof obj publicInput := by
  have h := (circuitEqv_iff a b).1 h
  unfold placeholderVerifyPublic
  simp only [h.sizes, h.verify_eq]

/-- Two constraint systems that compare equal and are not the same: `x y - z` and `y x - z`. -/
def exEqCircuit (swap : Bool) : Circuit ℚ :=
  let x : PlonkVar := ⟨0, 0, true, .witness⟩
  let y : PlonkVar := ⟨1, 1, true, .witness⟩
  let z : PlonkVar := ⟨2, 0, true, .witness⟩
  ⟨[⟨0, [.bin .sub (.term ⟨if swap then [y, x] else [x, y], 1⟩) (.term ⟨[z], 1⟩)]⟩],
    [(⟨0, 0, false, .witness⟩, ⟨2, 1, false, .witness⟩)],
    ⟨[⟨1, [⟨1, [.term ⟨if swap then [z, x] else [x, z], 2⟩]⟩]⟩], [⟨1, 2, [[⟨0, 0, true, .constant⟩]]⟩]⟩, [3]⟩

example : (exEqCircuit true).eqv (exEqCircuit false) = true ∧
    (exEqCircuit true).eqv { exEqCircuit false with publicInputSizes := [4] } = false := by
  decide +kernel

/-! ## C94 -/

theorem sizeToInt_small {n : Nat} (h : n < 2 ^ 31) : sizeToInt n = n := by
  unfold sizeToInt
  rw [Nat.mod_eq_of_lt (by omega), if_pos h]

theorem intToSize_nat {n : Nat} (h : n < 2 ^ 64) : intToSize (n : Int) = n := by
  unfold intToSize
  omega

theorem publicTotal_fold (sizes : List Nat) (acc : Nat) (h : acc + sizes.sum < 2 ^ 31) :
    sizes.foldl (fun acc s => sizeToInt ((intToSize acc + s) % 2 ^ 64)) (acc : Int) =
      ((acc + sizes.sum : Nat) : Int) := by
  induction sizes generalizing acc with
  | nil => simp
  | cons s ss ih =>
    simp only [List.sum_cons] at h
    simp only [List.foldl_cons, List.sum_cons]
    rw [intToSize_nat (by omega), Nat.mod_eq_of_lt (by omega), sizeToInt_small (by omega), ih _ (by omega)]
    congr 1
    omega

/-- C94 in part: the total public input size is the sum of the sizes of the columns while it is below `2^31`.
Missing: larger sums, for which it is wrong, see `C94_public_total_overflows`. -/
theorem C94_public_total_partial (c : Circuit F) (h : c.publicInputSizes.sum < 2 ^ 31) :
    c.publicInputTotal = c.publicInputSizes.sum := by
  have := publicTotal_fold c.publicInputSizes 0 (by simpa using h)
  simp only [Nat.cast_zero, zero_add] at this
  unfold Circuit.publicInputTotal
  rw [this, intToSize_nat (by omega)]

/-- C94 is false for large sums: the sum is kept in an `int`, so `2^32` values are reported as none, and
`2^31` values as more than `2^63`. -/
theorem C94_public_total_overflows (gates : List (Gate F)) (copies : List (PlonkVar × PlonkVar))
    (lookups : LookupSystem F) :
    (Circuit.mk gates copies lookups [2 ^ 32]).publicInputTotal = 0 ∧
      (Circuit.mk gates copies lookups [2 ^ 30, 2 ^ 30]).publicInputTotal = 2 ^ 64 - 2 ^ 31 := by
  constructor <;> (unfold Circuit.publicInputTotal; dsimp only; decide +kernel)

theorem foldl_mod_sum {α : Type} (f : α → Nat) (l : List α) (acc : Nat)
    (h : acc + (l.map f).sum < 2 ^ 64) :
    l.foldl (fun r x => (r + f x) % 2 ^ 64) acc = acc + (l.map f).sum := by
  induction l generalizing acc with
  | nil => simp
  | cons x l ih =>
    simp only [List.map_cons, List.sum_cons] at h
    simp only [List.foldl_cons, List.map_cons, List.sum_cons]
    rw [Nat.mod_eq_of_lt (by omega), ih _ (by omega)]
    omega

/-- C94: the counters count (as long as the numbers fit): the options of all lookup tables, the constraints of
all lookup gates and the inputs of all lookup constraints. -/
theorem C94_counts (sys : LookupSystem F) (ho : sys.optionCount < 2 ^ 64) (hi : sys.inputCount < 2 ^ 64)
    (he : ((sys.gates.flatMap (·.constraints)).map (·.input.length)).sum < 2 ^ 64) :
    sys.optionsNum = (sys.tables.flatMap (·.options)).length ∧
      sys.constraintsNum = (sys.gates.flatMap (·.constraints)).length ∧
      sys.expressionsNum = ((sys.gates.flatMap (·.constraints)).flatMap (·.input)).length := by
  refine ⟨?_, ?_, ?_⟩
  · unfold LookupSystem.optionsNum
    rw [foldl_mod_sum (fun t : LookupTable => t.options.length) _ 0 (by
      unfold LookupSystem.optionCount at ho; simpa using ho), List.length_flatMap,
      zero_add]
  · unfold LookupSystem.constraintsNum
    rw [foldl_mod_sum (fun g : LookupGate F => g.constraints.length) _ 0 (by
      unfold LookupSystem.inputCount at hi; simpa using hi),
      List.length_flatMap, zero_add]
  · have : sys.expressionsNum = (sys.gates.flatMap (·.constraints)).foldl
        (fun r c => (r + c.input.length) % 2 ^ 64) 0 := by
      unfold LookupSystem.expressionsNum
      rw [List.foldl_flatMap]
    rw [this, foldl_mod_sum (fun c : LookupConstraint F => c.input.length) _ 0 (by simpa using he),
      List.length_flatMap, zero_add]

/-- C94: the number of sorted columns that is reported is the number the lookup prover sorts the compressed
inputs and tables into; without lookup gates it is zero. -/
theorem C94_sorted_columns (t : PlonkTable F) (sys : LookupSystem F) (n usable : Nat) (theta : F)
    (hfit : sys.optionCount + sys.inputCount < 2 ^ 64) :
    (sys.gates = [] → sys.sortedColumnsNum = 0) ∧
    (sys.gates ≠ [] →
      Sortable (compressedInputs t sys n theta) (compressedValues t sys n usable theta) (2 ^ n) usable →
      ∃ sorted, sortPolynomials (compressedInputs t sys n theta) (compressedValues t sys n usable theta)
        (2 ^ n) usable = some sorted ∧ sorted.length = sys.sortedColumnsNum) := by
  constructor
  · intro h
    simp [LookupSystem.sortedColumnsNum, h]
  · intro h hs
    obtain ⟨sorted, h1, h2, -⟩ := C35_sort hs
    refine ⟨sorted, h1, ?_⟩
    have hi : (compressedInputs t sys n theta).length = sys.inputCount := by
      simp [compressedInputs, LookupSystem.inputCount, List.length_flatMap]
    have hv : (compressedValues t sys n usable theta).length = sys.optionCount := by
      have : sys.tables.map (fun t => t.options.length) =
          (sys.tables.zipIdx.map Prod.fst).map (fun t : LookupTable => t.options.length) := by
        rw [List.zipIdx_map_fst]
      simp only [compressedValues, LookupSystem.optionCount, List.length_flatMap, List.length_map]
      rw [this, List.map_map]
      rfl
    have ho : sys.optionsNum = sys.optionCount := by
      unfold LookupSystem.optionsNum LookupSystem.optionCount
      rw [foldl_mod_sum (fun t : LookupTable => t.options.length) _ 0 (by
        unfold LookupSystem.optionCount at hfit; simpa using by omega), zero_add]
    have hc : sys.constraintsNum = sys.inputCount := by
      unfold LookupSystem.constraintsNum LookupSystem.inputCount
      rw [foldl_mod_sum (fun g : LookupGate F => g.constraints.length) _ 0 (by
        unfold LookupSystem.inputCount at hfit; simpa using by omega), zero_add]
    have h0 : sys.gates.length ≠ 0 := by simpa using h
    rw [h2, hi, hv, LookupSystem.sortedColumnsNum, if_neg h0, ho, hc, Nat.mod_eq_of_lt hfit, add_comm]

/-- C94: the number of lookup table columns is the sum over the tables of the number of columns times the
number of options, if every option has as many columns as its table (which `append_option` asserts) and every
table has an option; a table without an option makes the call undefined. -/
theorem C94_table_columns (sys : LookupSystem F)
    (hopt : ∀ t ∈ sys.tables, ∀ o ∈ t.options, o.length = t.columnsNumber)
    (hfit : (sys.tables.map fun t => t.columnsNumber * t.options.length).sum < 2 ^ 64) :
    ((∀ t ∈ sys.tables, t.options ≠ []) → sys.tablesColumnsNum =
      some (sys.tables.map fun t => t.columnsNumber * t.options.length).sum) ∧
    ((∃ t ∈ sys.tables, t.options = []) → sys.tablesColumnsNum = none) := by
  unfold LookupSystem.tablesColumnsNum
  have key : ∀ (l : List LookupTable) (acc : Nat),
      (∀ t ∈ l, ∀ o ∈ t.options, o.length = t.columnsNumber) →
      acc + (l.map fun t => t.columnsNumber * t.options.length).sum < 2 ^ 64 →
      ((∀ t ∈ l, t.options ≠ []) → l.foldlM (fun r t => do
        let o ← t.options[0]?
        some ((r + o.length * t.options.length) % 2 ^ 64)) acc =
          some (acc + (l.map fun t => t.columnsNumber * t.options.length).sum)) ∧
      ((∃ t ∈ l, t.options = []) → l.foldlM (fun r t => do
        let o ← t.options[0]?
        some ((r + o.length * t.options.length) % 2 ^ 64)) acc = none) := by
    intro l
    induction l with
    | nil => intro acc _ _; simp
    | cons t l ih =>
      intro acc ho hf
      simp only [List.map_cons, List.sum_cons] at hf
      simp only [List.foldlM_cons, List.map_cons, List.sum_cons]
      by_cases hn : t.options = []
      · constructor
        · intro h; exact absurd hn (h t (by simp))
        · intro _; simp [hn]
      · obtain ⟨o, os, hos⟩ := List.exists_cons_of_ne_nil hn
        have hlen : o.length = t.columnsNumber := ho t (by simp) o (by simp [hos])
        have hstep : (do
            let o ← t.options[0]?
            some ((acc + o.length * t.options.length) % 2 ^ 64)) =
              some (acc + t.columnsNumber * t.options.length) := by
          rw [show t.options[0]? = some o by simp [hos], Option.bind_eq_bind, Option.bind_some, hlen,
            Nat.mod_eq_of_lt (by omega)]
        have ih := ih (acc + t.columnsNumber * t.options.length) (fun t ht => ho t (by simp [ht])) (by omega)
        rw [hstep]
        constructor
        · intro h
          rw [Option.bind_eq_bind, Option.bind_some, ih.1 (fun t ht => h t (by simp [ht])), add_assoc]
        · rintro ⟨t', ht', he⟩
          rcases List.mem_cons.1 ht' with rfl | ht'
          · exact absurd he hn
          · rw [Option.bind_eq_bind, Option.bind_some, ih.2 ⟨t', ht', he⟩]
  have := key sys.tables 0 hopt (by simpa using hfit)
  simpa using this

/-- A table that was filled with `append_option` meets the hypothesis on options. -/
theorem appendOption_length (t t' : LookupTable) (o : List PlonkVar)
    (h : ∀ o ∈ t.options, o.length = t.columnsNumber) (ha : t.appendOption o = some t') :
    ∀ o ∈ t'.options, o.length = t'.columnsNumber := by
  unfold LookupTable.appendOption at ha
  split at ha
  · rename_i hl
    simp only [Option.some.injEq] at ha
    subst ha
    intro o' ho'
    rcases List.mem_append.1 ho' with ho' | ho'
    · exact h o' ho'
    · rw [List.mem_singleton] at ho'
      subst ho'
      exact hl
  · simp at ha

/-- The hypotheses are met by a system with a lookup gate and a table. -/
example : (exEqCircuit true).lookups.sortedColumnsNum = 2 ∧
    (exEqCircuit true).lookups.tablesColumnsNum = some 1 ∧ (exEqCircuit true).publicInputTotal = 3 ∧
    (LookupTable.mk 2 0 []).appendOption [⟨0, 0, true, .constant⟩] = none := by decide +kernel

end plonk

end Crypto3Zk
