import Verif.Props.KimchiVerifier
import Verif.Props.KimchiRows
import Mathlib.Algebra.Field.ZMod
import Mathlib.Tactic.FinCases
import Mathlib.Tactic.Linarith
import Mathlib.Tactic.NormNum.Prime

/-!
# Examples for C82, C83, C84
-/

namespace Crypto3Zk

open Polynomial

/-! ## A circuit over `ZMod 7` with one generic gate `w₀ - 2 = 0` on all rows -/

instance exKimchiPrime : Fact (Nat.Prime 7) := ⟨by norm_num⟩

def exKSrs : IpaParams (ZMod 7) := ⟨[1, 2], 3⟩

def exKPoly (cs : List (ZMod 7)) : IpaPoly (ZMod 7) :=
  ⟨cs, 2 ^ 64 - 1, ⟨(List.range (chunkCount 2 cs.length)).map fun _ => 1, 0⟩⟩

def exKComm (cs : List (ZMod 7)) : PolyComm (ZMod 7) :=
  ⟨(List.range (chunkCount 2 cs.length)).map fun j => lin ((cs.drop (j * 2)).take 2) [1, 2] + (1 : ZMod 7) • 3, 0⟩

theorem exK_committed (cs : List (ZMod 7)) (h : cs.length ≤ 2) : Committed exKSrs (exKComm cs) (exKPoly cs) := by
  refine ⟨⟨fun _ => 1, 1, ?_⟩, rfl, ?_⟩
  · rw [ipaCommit_unbounded _ _ _ _ (by decide)]
    rfl
  · show cs.length + 2 ≤ 2 ^ 64 - 1
    omega

/-- the coefficients of the polynomials -/
def exKSigma (i : Fin 7) : List (ZMod 7) := [0, i.val + 1]
def exKQ (i : Fin 15) : List (ZMod 7) := if i = 0 then [1] else if i = 4 then [-2] else [0]
def exKW (i : Fin 15) : List (ZMod 7) := if i = 0 then [2] else [0]
def exKSel (g : KGate) : List (ZMod 7) := if g = .generic then [1] else [0]

def exKSp : KimchiSponges (ZMod 7) (ZMod 7) Unit Unit :=
  { ipa := ⟨fun _ _ => (), fun _ => (5, ()), fun _ _ => (), fun _ => (4, ())⟩
    init := (), absorbGs := fun _ _ => (), challenge := fun _ => (3, ()), digest := fun _ => 0,
    toField := fun x => x, frInit := (), frAbsorb := fun _ _ => (), frAbsorbs := fun _ _ => (),
    frChallenge := fun _ => (2, ()) }

def exKIdx : KIndex (ZMod 7) (ZMod 7) :=
  { domain := ⟨2, 6⟩, maxPolySize := 2, srs := exKSrs, lagrange := [], sigmaComm := fun i => exKComm (exKSigma i),
    coefficientsComm := fun i => exKComm (exKQ i), genericComm := exKComm [1], psmComm := exKComm [0],
    completeAddComm := exKComm [0], mulComm := exKComm [0], emulComm := exKComm [0],
    endomulScalarComm := exKComm [0], chachaComm := fun _ => exKComm [0],
    rangeCheckComm := [exKComm [0], exKComm [0]], shift := fun i => i.val + 1, zkpm := [1], w := 6, endo := 0,
    lookupIndex := ⟨false, [], [], ⟨[], 0⟩, 0, ⟨[], 0⟩, false⟩, lookupIndexUsed := false,
    constantTerm := (KExpr.literal 0).polish, indexTerm := [(.index .poseidon, KExpr.alpha.polish)],
    powersOfAlpha := registerAll [(.gate, 2), (.permutation, 3)], mds := fun _ _ => 0 }

def exKimchiEvals (x : ZMod 7) : KEvals (List (ZMod 7)) :=
  { w := fun i => chunkValues 2 (exKPoly (exKW i)) x, z := [1], s := fun i => [(i.val + 1) * x],
    lookup := ⟨[], [], [], [], false⟩, lookupUsed := false, genericSelector := [1], poseidonSelector := [0] }

/-- the proof before the opening is made; `ft` is zero at the second point -/
def exKProof : KProof (ZMod 7) (ZMod 7) :=
  { wComm := fun i => exKComm (exKW i), zComm := exKComm [1], tComm := exKComm [0], lookupSorted := [],
    lookupAggreg := ⟨[], 0⟩, lookupRuntime := ⟨[], 0⟩, lookupUsed := false, opening := ⟨[], 0, 0, 0, 0⟩,
    evals0 := exKimchiEvals 3, evals1 := exKimchiEvals (3 * 6), ftEval1 := 0, publicInput := [],
    prevChallenges := [([2], exKComm [1, 2])] }

def exKClaims : KimchiClaims exKSp exKIdx exKProof :=
  { P := ⟨fun i => exKPoly (exKSigma i), fun i => exKPoly (exKQ i), fun g => exKPoly (exKSel g),
      fun i => exKPoly (exKW i), exKPoly [1], exKPoly [0]⟩
    prev := [exKPoly [1, 2]]
    constant := .literal 0, terms := [(.index .poseidon, .alpha)], constantValue := 0,
    index := [(3, exKPoly [0])], start := 2, number := 3, regs := [(.gate, 2), (.permutation, 3)], chunks := 1
    size := rfl, generators := by decide
    sigma := fun i => exK_committed _ (by simp [exKSigma])
    coefficient := fun i => exK_committed _ (by rw [exKQ]; split_ifs <;> simp)
    generic := exK_committed [1] (by simp), poseidon := exK_committed [0] (by simp)
    completeAdd := exK_committed [0] (by simp), varBaseMul := exK_committed [0] (by simp)
    endoMul := exK_committed [0] (by simp), endoMulScalar := exK_committed [0] (by simp)
    chaCha := ⟨exK_committed [0] (by simp), exK_committed [0] (by simp), exK_committed [0] (by simp),
      exK_committed [0] (by simp)⟩
    rangeCheck := .cons (exK_committed [0] (by simp)) (.cons (exK_committed [0] (by simp)) .nil)
    noLookup := rfl, constant_eq := rfl, terms_eq := rfl, alphas := rfl, permutation := rfl, enough := le_rfl
    w := fun i => exK_committed _ (by rw [exKW]; split_ifs <;> simp)
    z := exK_committed _ (by simp), t := exK_committed _ (by simp)
    noPublic := rfl, noLookupProof := rfl
    evals0 := ⟨fun _ => rfl, by decide +kernel, by decide +kernel, by decide +kernel, by decide +kernel, rfl⟩
    evals1 := ⟨fun _ => rfl, by decide +kernel, by decide +kernel, by decide +kernel, by decide +kernel, rfl⟩
    previous := .cons ⟨exK_committed _ (by simp), by decide +kernel, by decide, by decide⟩ .nil
    constantValue_eq := ⟨_, rfl⟩
    index_eq := .cons ⟨⟨_, rfl⟩, rfl⟩ .nil
    sameChunks := by decide +kernel
    zeta_one := by decide +kernel, zeta_w := by decide +kernel }

theorem exK_satisfied : exKClaims.Satisfied ∧ exKClaims.TrueFt := by
  constructor
  · show _ = _
    decide +kernel
  · show _ = _
    decide +kernel

/-- there are an honest proof and a random vector for it, and the proof is accepted -/
example : ∃ o, Nonempty (KimchiRun exKSp exKIdx { exKProof with opening := o }) ∧
    ∀ rand sgRand, kimchiVerify exKSp rand sgRand exKIdx { exKProof with opening := o } = some true := by
  obtain ⟨o, -, h1, h2⟩ := C82_prover_completes_partial exKSp exKIdx exKProof (by decide) exKClaims
    exK_satisfied.1 exK_satisfied.2 [(1, 2)] 3 4 (by decide)
  refine ⟨o, h1, h2 ?_⟩
  intro b _ v _ x hx
  have key : ∀ (lr : List (ZMod 7 × ZMod 7)) (st : Unit), ∀ x ∈ (ipaChallenges exKSp.ipa lr st).1, x = 4 := by
    intro lr
    induction lr with
    | nil => exact fun st x hx => absurd hx (by simp [ipaChallenges])
    | cons l lr ih =>
      intro st x hx
      rw [ipaChallenges] at hx
      rcases List.mem_cons.mp hx with rfl | hx
      · rfl
      · exact ih _ x hx
  rw [key _ _ x hx]
  decide

/-- the hypothesis of `C83_forgery` holds for a proof of a false statement: a witness that violates the gate -/
def exKFalse : KProof (ZMod 7) (ZMod 7) :=
  { exKProof with
    wComm := fun i => exKComm [i.val]
    evals0 := { exKimchiEvals 3 with w := fun i => [i.val] }
    evals1 := { exKimchiEvals 4 with w := fun i => [i.val] }
    opening := ⟨[(0, 0)], 0, 0, 0, 0⟩ }

example : kimchiVerify exKSp 1 1 exKIdx exKFalse = some false := by decide +kernel

example : ∃ o, ∀ rand sgRand, kimchiVerify exKSp rand sgRand exKIdx { exKFalse with opening := o } = some true := by
  have h : kimchiVerify exKSp 1 1 exKIdx exKFalse ≠ none := by decide +kernel
  obtain ⟨o, -, ho⟩ := C83_forgery exKSp exKIdx exKFalse 1 1 h
  exact ⟨o, ho⟩

/-! ## Rows -/

/-- two rows, `1` and `-1`, with the gate `w₀ - 2 = 0` and the identity permutation -/
noncomputable def exKRows : KRows ℚ :=
  { w := fun i => if i = 0 then C 2 else 0
    z := 1
    sigma := fun i => C ((i.val : ℚ) + 1) * X
    q := fun i => if i = 0 then 1 else if i = 4 then C (-2) else 0
    generic := 1
    zkpm := 1
    others := fun _ => 0 }

theorem exKRows_degrees : exKRows.Degrees 1 := by
  refine ⟨le_rfl, fun i => ?_, by simp [exKRows], fun i => ?_, fun i => ?_, by simp [exKRows], by simp [exKRows],
    by simp [exKRows]⟩
  · simp only [exKRows]
    split_ifs <;> simp
  · exact (natDegree_C_mul_le _ _).trans natDegree_X.le
  · simp only [exKRows]
    split_ifs <;> simp

example (x : ℚ) (hx : x ^ 2 = 1) : exKRows.generic.eval x * exKRows.gate1 x + (if x = 1 then
    ((2 : Nat) : ℚ) * (exKRows.z.eval 1 - 1) else 0) = 0 := by
  refine (C83_rows_partial exKRows 2 1 1 0 (-1) (-1) 3 5 (fun i => i.val + 1) (by norm_num) (by norm_num)
    exKRows_degrees ((Finset.range 4).image fun i : Nat => (i : ℚ)) ?_ (fun _ => 0) (by simp)
    (fun _ => (Finset.range 20).image fun i : Nat => (i : ℚ) + 2) ?_ ?_ x hx).2.2.1
  · rw [Finset.card_image_of_injective _ Nat.cast_injective]
    simp
  · intro a _
    rw [Finset.card_image_of_injective _ fun a b h => by simpa using h]
    simp
  · intro a _ zeta hz
    obtain ⟨i, -, rfl⟩ := Finset.mem_image.mp hz
    have hi : (0 : ℚ) ≤ i := Nat.cast_nonneg i
    refine ⟨by intro h; linarith, by intro h; linarith, ?_⟩
    simp only [KRows.Holds, KimchiEquation, permConstraint, genericConstraint, KRows.at, exKRows, eval_one,
      sub_self, mul_zero, add_zero, eval_mul, eval_C, eval_X, Fin.prod_univ_seven, Fin.prod_univ_six]
    simp
    right
    ring

/-! ## Previous challenges: two challenges give two chunks of two coefficients -/

example : prevChalEvals 2 [(3, 9)] ([2, 5] : List (ZMod 7)) = [[chunkEval 2 [1, 5, 2, 10] 0 3, chunkEval 2 [1, 5, 2, 10] 1 3]] := by
  decide +kernel

end Crypto3Zk
