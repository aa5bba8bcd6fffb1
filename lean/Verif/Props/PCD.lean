import Verif.Spec.PCD
import Mathlib.Algebra.Field.Rat
import Mathlib.Algebra.BigOperators.Group.List.Basic
import Mathlib.Data.List.GetD

/-!
# C59: compliance predicates of proof-carrying data
-/

set_option linter.unusedSectionVars false

namespace Crypto3Zk

variable {F : Type} [Field F] [DecidableEq F]

theorem foldl_add_eq (l : List Nat) (a : Nat) : l.foldl (· + ·) a = a + l.sum := by
  induction l generalizing a with
  | nil => simp
  | cons x l ih => rw [List.foldl_cons, ih, List.sum_cons]; omega

theorem foldl_append_eq {α β : Type} (f : α → List β) (l : List α) (r : List β) :
    l.foldl (fun r m => r ++ f m) r = r ++ (l.map f).flatten := by
  induction l generalizing r with
  | nil => simp
  | cons x l ih => rw [List.foldl_cons, ih]; simp

theorem sum_map_succ (l : List Nat) : (l.map (1 + ·)).sum = l.length + l.sum := by
  induction l with
  | nil => rfl
  | cons x l ih => simp [ih]; omega

/-- **C59** (well-formedness): the check accepts exactly when the type is nonzero, there is one
incoming length per place, the inputs are the outgoing message and the variables are the outgoing
message, the arity, the incoming messages, the local data and the witness. -/
theorem C59_well_formed (cp : CompliancePredicate F) :
    cp.isWellFormed = true ↔
      cp.type ≠ 0 ∧ cp.incomingPayloadLengths.length = cp.maxArity ∧
      cp.constraintSystem.primaryInputSize = 1 + cp.outgoingPayloadLength ∧
      cp.constraintSystem.primaryInputSize + cp.constraintSystem.auxiliaryInputSize =
        (1 + cp.outgoingPayloadLength) + 1 + (cp.incomingPayloadLengths.map (1 + ·)).sum +
          cp.localDataLength + cp.witnessLength := by
  unfold CompliancePredicate.isWellFormed R1CS.numInputs R1CS.numVariables
  rw [foldl_add_eq, sum_map_succ]
  simp only [Bool.and_eq_true, decide_eq_true_eq]
  constructor
  · rintro ⟨⟨⟨h1, h2⟩, h3⟩, h4⟩
    exact ⟨h1, h2, by omega, by omega⟩
  · rintro ⟨h1, h2, h3, h4⟩
    exact ⟨⟨⟨h1, h2⟩, by omega⟩, by omega⟩

theorem pcd_aux_eq (lengths : List Nat) (incoming : List (PcdMessage F)) (localData witness : List F)
    (ha : incoming.length ≤ lengths.length) :
    pcdAuxiliaryInput lengths incoming localData witness =
      [(incoming.length : F)] ++
        ((List.range lengths.length).map (incomingPlace lengths incoming)).flatten ++
        localData ++ witness := by
  unfold pcdAuxiliaryInput
  simp only
  rw [foldl_append_eq, foldl_append_eq]
  have hsplit : (List.range lengths.length).map (incomingPlace lengths incoming) =
      incoming.map PcdMessage.assignment ++
        (lengths.drop incoming.length).map fun l => List.replicate (1 + l) 0 := by
    apply List.ext_getElem
    · simp; omega
    · intro i h1 h2
      simp only [List.length_map, List.length_range] at h1
      rw [List.getElem_map, List.getElem_range]
      unfold incomingPlace
      by_cases hi : i < incoming.length
      · rw [List.getElem?_eq_getElem hi, List.getElem_append_left (by simpa using hi)]
        simp [PcdMessage.assignment]
      · rw [List.getElem?_eq_none (by omega), List.getElem_append_right (by simp; omega)]
        simp only [List.getElem_map, List.getElem_drop, List.length_map]
        rw [List.getD_eq_getElem _ _ h1]
        congr 3
        omega
  rw [hsplit]
  simp [List.append_assoc]

/-- **C59** (satisfaction): the predicate holds of the data exactly when the constraint system holds
of the variables in the documented order; places without a message are zero. -/
theorem C59_satisfied (cp : CompliancePredicate F) (outgoing : PcdMessage F)
    (incoming : List (PcdMessage F)) (localData witness : List F)
    (ha : incoming.length ≤ cp.incomingPayloadLengths.length) :
    cp.isSatisfied outgoing incoming localData witness =
      R1CS.satisfiedLoop (pcdVariables cp.incomingPayloadLengths outgoing incoming localData witness)
        cp.constraintSystem.constraints := by
  unfold CompliancePredicate.isSatisfied R1CS.isSatisfied
  rw [pcd_aux_eq _ _ _ _ ha]
  unfold pcdPrimaryInput PcdMessage.assignment pcdVariables
  simp [List.append_assoc]

theorem places_length (lengths : List Nat) (incoming : List (PcdMessage F))
    (hl : ∀ (i : Nat) (m : PcdMessage F), incoming[i]? = some m →
      lengths[i]? = some m.payload.length) (n : Nat) (hn : n ≤ lengths.length) :
    ((List.range n).map (incomingPlace lengths incoming)).flatten.length =
      ((lengths.take n).map (1 + ·)).sum := by
  induction n with
  | zero => simp
  | succ n ih =>
    rw [List.range_succ, List.map_append, List.flatten_append, List.length_append, ih (by omega),
      List.take_succ_eq_append_getElem (by omega), List.map_append, List.sum_append]
    congr 1
    simp only [List.map_cons, List.map_nil, List.flatten_cons, List.flatten_nil, List.append_nil,
      List.sum_cons, List.sum_nil, Nat.add_zero]
    unfold incomingPlace
    cases h : incoming[n]? with
    | none => simp only [List.length_replicate]; rw [List.getD_eq_getElem _ _ (by omega)]
    | some m =>
      have := hl n m h
      rw [List.getElem?_eq_getElem (by omega)] at this
      have h2 := Option.some.inj this
      simp only [List.length_cons]
      omega

/-- **C59** (the number of variables is pinned): for a well-formed predicate and data that fits it,
the primary input has exactly the system's number of inputs, and the assignment has exactly the
system's number of variables if and only if the witness has the announced length. -/
theorem C59_variables_pinned (cp : CompliancePredicate F) (hw : cp.isWellFormed = true)
    (outgoing : PcdMessage F) (incoming : List (PcdMessage F)) (localData witness : List F)
    (hf : FitsPredicate cp outgoing incoming localData) :
    (pcdPrimaryInput outgoing).length = cp.constraintSystem.primaryInputSize ∧
      ((pcdPrimaryInput outgoing).length +
        (pcdAuxiliaryInput cp.incomingPayloadLengths incoming localData witness).length =
          cp.constraintSystem.primaryInputSize + cp.constraintSystem.auxiliaryInputSize ↔
        witness.length = cp.witnessLength) := by
  obtain ⟨_, _, h3, h4⟩ := (C59_well_formed cp).1 hw
  have h5 : (pcdPrimaryInput outgoing).length = 1 + cp.outgoingPayloadLength := by
    simp [pcdPrimaryInput, PcdMessage.assignment, hf.outgoing_length, Nat.add_comm]
  refine ⟨h5.trans h3.symm, ?_⟩
  rw [h5, h4, pcd_aux_eq _ _ _ _ hf.arity]
  simp only [List.length_append, List.length_singleton]
  rw [places_length _ _ hf.incoming_length _ le_rfl, List.take_length, hf.local_length]
  omega

/-- **C59** (where each incoming message is): the variables of incoming place `i` start after the
outgoing message, the arity and the places before it. -/
theorem C59_incoming_place (cp : CompliancePredicate F) (outgoing : PcdMessage F)
    (incoming : List (PcdMessage F)) (localData witness : List F)
    (hf : FitsPredicate cp outgoing incoming localData) (i : Nat)
    (hi : i < cp.incomingPayloadLengths.length) :
    ((pcdVariables cp.incomingPayloadLengths outgoing incoming localData witness).drop
      (1 + cp.outgoingPayloadLength + 1 +
        ((cp.incomingPayloadLengths.take i).map (1 + ·)).sum)).take
      (1 + cp.incomingPayloadLengths[i]) = incomingPlace cp.incomingPayloadLengths incoming i := by
  set L := cp.incomingPayloadLengths with hL
  have hp := places_length L incoming hf.incoming_length i (by omega)
  have hp' := places_length L incoming hf.incoming_length (i + 1) (by omega)
  rw [List.take_succ_eq_append_getElem (by omega), List.map_append, List.sum_append, ← hp,
    List.range_succ, List.map_append, List.flatten_append, List.length_append] at hp'
  have hlen : (incomingPlace L incoming i).length = 1 + L[i] := by simpa using hp'
  have hsplit : ((List.range L.length).map (incomingPlace L incoming)) =
      (List.range i).map (incomingPlace L incoming) ++ [incomingPlace L incoming i] ++
        (List.range' (i + 1) (L.length - (i + 1))).map (incomingPlace L incoming) := by
    rw [← List.map_singleton, ← List.map_append, ← List.range_succ, ← List.map_append]
    congr 1
    rw [List.range_eq_range', List.range_eq_range']
    have := List.range'_append_1 (s := 0) (m := i + 1) (n := L.length - (i + 1))
    rw [Nat.zero_add] at this
    rw [this]
    congr 1
    omega
  unfold pcdVariables
  rw [hsplit]
  simp only [List.flatten_append, List.flatten_singleton, List.append_assoc]
  have hpre : (1 + cp.outgoingPayloadLength + 1 + ((L.take i).map (1 + ·)).sum) =
      (((outgoing.type : F) :: outgoing.payload) ++ ([(incoming.length : F)] ++
        ((List.range i).map (incomingPlace L incoming)).flatten)).length := by
    simp only [List.length_append, List.length_cons, List.length_nil, hp, hf.outgoing_length]
    omega
  rw [← List.append_assoc [(incoming.length : F)], ← List.append_assoc, hpre, List.drop_left',
    ← hlen, List.take_left']
  · rfl
  · rfl

/-- The two length checks say what they are called. -/
theorem C59_equal_lengths (cp : CompliancePredicate F) :
    (cp.hasEqualInputAndOutputLengths = true ↔
      ∀ l ∈ cp.incomingPayloadLengths, l = cp.outgoingPayloadLength) ∧
    (cp.hasEqualInputLengths = true ↔
      ∀ l ∈ cp.incomingPayloadLengths, ∀ l' ∈ cp.incomingPayloadLengths, l = l') := by
  constructor
  · simp [CompliancePredicate.hasEqualInputAndOutputLengths]
  · unfold CompliancePredicate.hasEqualInputLengths
    cases cp.incomingPayloadLengths with
    | nil => simp
    | cons l ls =>
      simp only [List.all_eq_true, decide_eq_true_eq, List.mem_cons]
      constructor
      · intro h x hx y hy
        have hx' : x = l := hx.elim id (h x)
        have hy' : y = l := hy.elim id (h y)
        rw [hx', hy']
      · intro h x hx
        exact h x (Or.inr hx) l (Or.inl rfl)

/-- Outgoing payload 1, two places with payloads 1 and 2, one local value, one witness value; the
constraint says that the outgoing payload is the product of the first incoming payload (variable 5)
and the witness (variable 10). -/
def exPredicate : CompliancePredicate ℚ :=
  ⟨0, 3, ⟨2, 8, [⟨[⟨5, 1⟩], [⟨10, 1⟩], [⟨2, 1⟩]⟩]⟩, 1, 2, [1, 2], 1, 1, false, []⟩

example : exPredicate.isWellFormed = true ∧
    FitsPredicate exPredicate ⟨3, [12]⟩ [⟨3, [4]⟩] [7] ∧
    exPredicate.isSatisfied ⟨3, [12]⟩ [⟨3, [4]⟩] [7] [3] = some true ∧
    exPredicate.isSatisfied ⟨3, [12]⟩ [⟨3, [4]⟩] [7] [2] = some false ∧
    pcdVariables [1, 2] ⟨3, [12]⟩ [⟨3, [4]⟩] [7] [3] = ([3, 12, 1, 3, 4, 0, 0, 0, 7, 3] : List ℚ) := by
  refine ⟨by decide +kernel, ⟨rfl, by decide, ?_, rfl⟩, by decide +kernel, by decide +kernel,
    by decide +kernel⟩
  intro i m h
  match i with
  | 0 => simp at h; subst h; rfl
  | n + 1 => simp at h

end Crypto3Zk
