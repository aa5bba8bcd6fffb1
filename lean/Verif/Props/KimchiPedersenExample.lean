import Verif.Props.KimchiPedersen
import Verif.Props.KimchiCommitment
import Mathlib.Tactic.FinCases
import Mathlib.Tactic.NormNum

/-!
# Examples for C75, C76
-/

namespace Crypto3Zk

/-- a sponge that counts its calls -/
def exIpaSponge : IpaSponge ℚ ℚ Nat where
  absorbFr := fun st _ => st + 1
  point := fun st => (7, st + 1)
  absorbG := fun st _ => st + 1
  challenge := fun st => ((st : ℚ) + 2, st + 1)

def exIpaParams : IpaParams ℚ := ⟨[2, 3], 5⟩

def exIpaWs : Nat → ℚ := fun i => i + 1

/-- the commitment to `1 + 4x + 2x²` with the degree bound 3: two chunks and a shifted part -/
theorem exIpaCommit : ipaCommit exIpaParams [1, 4, 2] 3 exIpaWs 4 =
    some (⟨[19, 14], 26⟩, ⟨[1, 2], 4⟩) := by decide +kernel

theorem exIpaCommit' : ipaCommit exIpaParams [9] (-1) exIpaWs 4 = some (⟨[23], 0⟩, ⟨[1], 0⟩) := by
  decide +kernel

def exIpaEvals : List (IpaEval ℚ ℚ) :=
  [⟨⟨[19, 14], 26⟩, [[9, 2], [13, 2]], 3⟩, ⟨⟨[23], 0⟩, [[9], [9]], -1⟩]

def exIpaPolys : List (IpaPoly ℚ) := [⟨[1, 4, 2], 3, ⟨[1, 2], 4⟩⟩, ⟨[9], 2 ^ 64 - 1, ⟨[1], 0⟩⟩]

theorem exIpaHonest : List.Forall₂ (HonestClaim exIpaParams [2, 3]) exIpaEvals exIpaPolys := by
  refine .cons ⟨⟨exIpaWs, 4, exIpaCommit⟩, rfl, ?_, Or.inr ⟨by decide, Or.inl (by decide)⟩⟩
    (.cons ⟨⟨exIpaWs, 4, exIpaCommit'⟩, by decide, ?_, Or.inl ⟨by decide, by decide⟩⟩ .nil)
  · decide +kernel
  · decide +kernel

def exIpaOpening : IpaProof ℚ ℚ :=
  (ipaProve exIpaSponge exIpaParams exIpaPolys [2, 3] 3 5 [(1, 2)] 4 6 0).getD ⟨[], 0, 0, 0, 0⟩

def exIpaBatch : IpaBatch ℚ ℚ Nat := ⟨0, exIpaEvals, [2, 3], 3, 5, exIpaOpening⟩

theorem exIpaHonestBatch : HonestBatch exIpaSponge exIpaParams exIpaBatch := by
  refine ⟨by decide, exIpaPolys, [(1, 2)], 4, 6, exIpaHonest, by decide +kernel, ?_⟩
  obtain ⟨o, h, -⟩ := C75_prover_succeeds exIpaSponge exIpaParams exIpaEvals exIpaPolys [2, 3] 3 5 [(1, 2)]
    4 6 0 (by decide) exIpaHonest (by decide +kernel)
  have h' : exIpaOpening = o := by rw [exIpaOpening, h]; rfl
  show ipaProve exIpaSponge exIpaParams exIpaPolys [2, 3] 3 5 [(1, 2)] 4 6 0 = some exIpaOpening
  rw [h, h']

/-- the hypotheses of C75 are met by two batches with a degree bound and two points -/
example (rand sgRand : ℚ) :
    ipaVerify exIpaSponge exIpaParams rand sgRand [exIpaBatch, exIpaBatch] = some true := by
  refine C75_honest_openings_are_accepted_partial _ _ _ ?_ ?_ _ _
  · intro b hb
    simp only [List.mem_cons, List.not_mem_nil, or_false, or_self] at hb
    rw [hb]
    exact exIpaHonestBatch
  · intro b hb v _ c hc
    simp only [List.mem_cons, List.not_mem_nil, or_false, or_self] at hb
    rw [hb] at hc
    have hlen : ∀ (lr : List (ℚ × ℚ)) (st : Nat), ∀ c ∈ (ipaChallenges exIpaSponge lr st).1, 0 < c := by
      intro lr
      induction lr with
      | nil => simp [ipaChallenges]
      | cons x lr ih =>
        intro st c hc
        simp only [ipaChallenges, List.mem_cons] at hc
        rcases hc with rfl | hc
        · show (0 : ℚ) < _ + 2
          positivity
        · exact ih _ c hc
    exact (hlen _ _ c hc).ne'

/-- C75 fails for a zero polynomial with a degree bound: the prover counts a shifted part for it, the
verifier does not. The claims for `0` (three coefficients, bound 3) and for `1` are true and honestly
committed and opened, but rejected. -/
theorem C75_zero_polynomial_with_bound :
    ipaCommit exIpaParams [0, 0, 0] 3 exIpaWs 4 = some (⟨[5, 10], 0⟩, ⟨[1, 2], 0⟩) ∧
    ipaCommit exIpaParams [1] (-1) exIpaWs 4 = some (⟨[7], 0⟩, ⟨[1], 0⟩) ∧
    ∃ o, ipaProve exIpaSponge exIpaParams
        [⟨[0, 0, 0], 3, ⟨[1, 2], 0⟩⟩, ⟨[1], 2 ^ 64 - 1, ⟨[1], 0⟩⟩] [2] 3 5 [(1, 2)] 4 6 0 = some o ∧
      ipaVerify exIpaSponge exIpaParams 11 13
        [⟨0, [⟨⟨[5, 10], 0⟩, [[0, 0]], 3⟩, ⟨⟨[7], 0⟩, [[1]], -1⟩], [2], 3, 5, o⟩] = some false := by
  refine ⟨by decide +kernel, by decide +kernel, _, rfl, by decide +kernel⟩

/-- a polynomial with fewer coefficients than its bound cannot be committed to -/
example : ipaCommit exIpaParams [1, 4, 2] 5 exIpaWs 4 = some (⟨[19, 14], 0⟩, ⟨[1, 2], 0⟩) ∧
    ipaCommit exIpaParams [1, 4] 1 exIpaWs 4 = none :=
  ⟨by decide +kernel, C75_bounded_commitment_undefined _ _ _ _ _ (by decide) (by decide +kernel)
    (by decide) (by decide)⟩

/-- C76 fails: the commitment to `9` is opened to the value `0` at `2` -/
theorem C76_false_value_accepted :
    ipaCommit exIpaParams [9] (-1) exIpaWs 4 = some (⟨[23], 0⟩, ⟨[1], 0⟩) ∧
    ∃ o : IpaProof ℚ ℚ, ∀ rand sgRand, ipaVerify exIpaSponge exIpaParams rand sgRand
      [⟨0, [⟨⟨[23], 0⟩, [[0]], -1⟩], [2], 3, 5, o⟩] = some true := by
  refine ⟨exIpaCommit', ?_⟩
  obtain ⟨o, -, h⟩ := C76_any_claim_can_be_opened exIpaSponge exIpaParams 0 [⟨⟨[23], 0⟩, [[0]], -1⟩] [2] 3 5
    (by decide +kernel)
  exact ⟨o, h⟩

/-! ## A tree of transcripts -/

abbrev exV := Fin 4 → ℚ

def exE (i : Fin 4) : exV := Pi.single i 1

/-- two generators, and the fourth unit vector for `h`; the third one will be `u` -/
def exTreeParams : IpaParams exV := ⟨[exE 0, exE 1], exE 3⟩

/-- a sponge with the challenges `x` and then `c` -/
def exTreeSponge (x c : ℚ) : IpaSponge ℚ exV Nat where
  absorbFr := fun st _ => st
  point := fun st => (exE 2, st)
  absorbG := fun st _ => st
  challenge := fun st => (if st = 0 then x else c, st + 1)

/-- the commitment to `3 + 5x`, and its value at 2 -/
def exTreeEvals : List (IpaEval ℚ exV) := [⟨⟨[(3 : ℚ) • exE 0 + (5 : ℚ) • exE 1], 0⟩, [[13]], -1⟩]

/-- the opening for the challenges `x` and `c` -/
def exTreeOpening (x c : ℚ) : IpaProof ℚ exV :=
  ⟨[((5 : ℚ) • exE 0 + (5 : ℚ) • exE 2, (3 : ℚ) • exE 1 + (6 : ℚ) • exE 2)], 0, (5 / x + 3) * c, 0,
    exE 0 + x • exE 1⟩

def exTreeX (i : Fin 4) : ℚ := (i : ℚ) + 1

def exTree : IpaTree ℚ exV 1 :=
  .node ((5 : ℚ) • exE 0 + (5 : ℚ) • exE 2) ((3 : ℚ) • exE 1 + (6 : ℚ) • exE 2) exTreeX fun i =>
    .leaf 0 1 2 ((5 / exTreeX i + 3) * 1) ((5 / exTreeX i + 3) * 2) 0 0

theorem exTree_run (x c : ℚ) (hx : x ≠ 0) :
    AcceptedRun exTreeParams exTreeEvals [2] 3 5 (exE 2)
      [((5 : ℚ) • exE 0 + (5 : ℚ) • exE 2, (3 : ℚ) • exE 1 + (6 : ℚ) • exE 2)] [x] 0 c
      ((5 / x + 3) * c) 0 := by
  have hcl : Nat.clog 2 2 = 1 := by decide +kernel
  refine ⟨Nat, exTreeSponge x c, ⟨0, exTreeEvals, [2], 3, 5, exTreeOpening x c⟩, 13, rfl, rfl, rfl, rfl,
    ?_, rfl, rfl, rfl, rfl, rfl, rfl, rfl, ?_, ?_⟩
  · simp [IpaBatch.cip, exTreeEvals, ipaCombined, ipaTranspose, hornerEval, exTreeParams]
  · have hc : IpaBatch.chals (exTreeSponge x c) ⟨0, exTreeEvals, [2], 3, 5, exTreeOpening x c⟩ 13 = [x] := rfl
    have hc2 : IpaBatch.c (exTreeSponge x c) ⟨0, exTreeEvals, [2], 3, 5, exTreeOpening x c⟩ 13 = c := rfl
    have hu : (IpaBatch.u (exTreeSponge x c) ⟨0, exTreeEvals, [2], 3, 5, exTreeOpening x c⟩ 13).1 = exE 2 := rfl
    rw [IpaBatch.defect, hc, hc2, hu]
    simp only [exTreeEvals, exTreeOpening, exTreeParams, List.flatMap_cons, List.flatMap_nil, IpaEval.comms,
      ne_eq, not_true, and_false, if_false, List.append_nil, powSum, lrSum, bPoly_cons, bPoly_nil,
      List.map_cons, List.map_nil, List.length_nil, pow_zero, pow_one]
    funext i
    fin_cases i <;> simp [exE] <;> field_simp <;> ring
  · have hc : IpaBatch.chals (exTreeSponge x c) ⟨0, exTreeEvals, [2], 3, 5, exTreeOpening x c⟩ 13 = [x] := rfl
    rw [IpaBatch.sgDefect, hc]
    simp [exTreeOpening, exTreeParams, IpaParams.padded, hcl, coefRec]

/-- the hypotheses of `C76_evaluation_binding_partial` are met -/
example : (13 : ℚ) = powSum (5 : ℚ) ([2].map (hornerEval [3, 5])) := by
  refine C76_evaluation_binding_partial exTreeParams exTreeEvals [2] 3 5 (exE 2) 1 rfl ?_ exTree ?_ ?_
    [3, 5] 0 rfl ?_ 13 3 ?_
  · intro f s t h
    have h0 := congrFun h 0
    have h1 := congrFun h 1
    have h2 := congrFun h 2
    have h3 := congrFun h 3
    simp [exTreeParams, exE, Finset.sum_range_succ] at h0 h1 h2 h3
    refine ⟨fun j hj => ?_, h2, h3⟩
    have hj' : j < 2 := hj
    interval_cases j <;> assumption
  · refine ⟨fun i j hij => ?_, fun i => ?_, fun i => (by decide : (1 : ℚ) ≠ 2)⟩
    · simp only [exTreeX, add_left_inj, Nat.cast_inj] at hij
      exact Fin.ext hij
    · rw [exTreeX]
      positivity
  · intro i
    have hx : exTreeX i ≠ 0 := by
      rw [exTreeX]
      positivity
    exact ⟨exTree_run (exTreeX i) 1 hx, exTree_run (exTreeX i) 2 hx⟩
  · funext i
    fin_cases i <;> simp [exTreeEvals, exTreeParams, IpaEval.comms, exE, powSum]
  · simp [exTreeEvals, ipaCombined, ipaTranspose, hornerEval, exTreeParams]

/-! ## C77 -/

example : (PolyComm.add (⟨[1, 2], 0⟩ : PolyComm ℚ) ⟨[5], 7⟩) = ⟨[6, 2], 7⟩ := by decide +kernel

/-- the difference of one chunk and two chunks: the second one should be `-2` -/
example : (PolyComm.sub (⟨[5], 0⟩ : PolyComm ℚ) ⟨[1, 2], 7⟩) = ⟨[4, 2], 7⟩ := by decide +kernel

/-- the hypotheses of the homomorphism theorem are met -/
example : ∃ C D B E, ipaCommit exIpaParams [1, 4, 2] (-1) exIpaWs 4 = some (C, B) ∧
    ipaCommit exIpaParams [3, 0, 1] (-1) exIpaWs 5 = some (D, E) ∧
    ipaCommit exIpaParams [4, 4, 3] (-1) (fun i => exIpaWs i + exIpaWs i) 9 = some (C.add D, B.add E) := by
  refine ⟨⟨[19, 14], 0⟩, ⟨[11, 12], 0⟩, ⟨[1, 2], 0⟩, ⟨[1, 2], 0⟩, by decide +kernel, by decide +kernel, ?_⟩
  decide +kernel

end Crypto3Zk
