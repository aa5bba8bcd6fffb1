import Verif.Model.CircuitArgs
import Verif.Props.Circuits
import Verif.Props.PGHR13
import Verif.Props.USCSArg

/-!
# C68: the arguments for circuits
-/

set_option linter.unusedSectionVars false

namespace Crypto3Zk

variable {F : Type} [Field F] [DecidableEq F] {D : EvalDomain F}
variable {G1 G2 GT : Type} [AddCommGroup G1] [Module F G1] [AddCommGroup G2] [Module F G2]
  [AddCommGroup GT] [Module F GT] [DecidableEq GT]

/-- **C68** (arithmetic circuits): for every valid circuit and every input that makes all outputs zero,
with every key pair the generator returns and all randomness, proving succeeds and both verifiers
accept. -/
theorem C68_bacs_complete (P : Pairing F G1 G2 GT) (hD : D.Lawful) (c : Bacs F)
    (hv : c.isValid = some true)
    (hm : c.toR1CS.numConstraints + c.primaryInputSize + 1 ≤ D.m)
    (T : Pghr13Trapdoor F) (chunks : Nat) (hwf1 : ∀ g, P.wf1 g = true) (hwf2 : ∀ g, P.wf2 g = true)
    (p a : List F) (hp : p.length = c.primaryInputSize) (ha : a.length = c.auxiliaryInputSize)
    (hsat : c.isSatisfied p a = some true) (d1 d2 d3 : F)
    (pk : Bacs F × Pghr13PK F G1 G2) (vk : Pghr13VK G1 G2)
    (hgen : bacsGenerate P D c T chunks = some (pk, vk)) :
    ∃ π, bacsProve D pk p a d1 d2 d3 = some π ∧
      bacsVerifyStrong P vk p π = some true ∧ bacsVerifyWeak P vk p π = some true := by
  unfold bacsGenerate at hgen
  simp only [Option.bind_eq_bind, Option.bind_eq_some_iff, Option.some.injEq, Prod.mk.injEq] at hgen
  obtain ⟨⟨rpk, rvk⟩, hrgen, rfl, rfl⟩ := hgen
  obtain ⟨w, b, hw, htake, hb, hr⟩ := C21_bacs_r1cs_agree c hv p a hp ha
  rw [hsat, Option.some.injEq] at hb
  subst hb
  have ht : Bacs.Topo c.numInputs c.gates := by simpa using Bacs.topo_of_validFrom _ _ 0 hv
  have hlw : w.length = p.length + (a.length + c.gates.length) := by
    obtain ⟨r, h1, h2, -⟩ := Bacs.satisfied_spec c ht p a (by simp [Bacs.numInputs, hp, ha])
    rw [Bacs.witnessMap] at hw
    rw [h1, Option.some.injEq] at hw
    rw [← hw]
    simp only [List.length_append]
    omega
  obtain ⟨π, h1, h2, h3⟩ := C51_pghr13_complete P hD c.toR1CS (Bacs.toR1CS_wellRanged c ht) hm T chunks
    hwf1 hwf2 p (w.drop p.length) hp (by rw [List.length_drop, hlw, ha]; simp [Bacs.toR1CS]) hr d1 d2 d3
    rpk rvk hrgen
  refine ⟨π, ?_, h2, h3⟩
  unfold bacsProve
  simp only [hw, Option.bind_eq_bind, Option.bind_some]
  exact h1

/-- **C68** (arithmetic circuits, keys): key generation fails for few points only. -/
theorem C68_bacs_generator (P : Pairing F G1 G2 GT) (hD : D.Lawful) (c : Bacs F)
    (hv : c.isValid = some true)
    (hm : c.toR1CS.numConstraints + c.primaryInputSize + 1 ≤ D.m)
    (T : Pghr13Trapdoor F) (chunks : Nat) (S : Finset F)
    (hS : ∀ t ∈ S, bacsGenerate P D c { T with t := t } chunks = none) :
    S.card ≤ (c.primaryInputSize + 1) * (D.m - 1) := by
  have ht : Bacs.Topo c.numInputs c.gates := by simpa using Bacs.topo_of_validFrom _ _ 0 hv
  refine C51_generator_defined P hD c.toR1CS (Bacs.toR1CS_wellRanged c ht) hm T chunks S fun t h => ?_
  have := hS t h
  unfold bacsGenerate at this
  cases hg : pghr13Generate P D c.toR1CS { T with t := t } chunks with
  | none => rfl
  | some k => rw [hg] at this; simp at this

/-- **C68** (boolean circuits): in every field whose characteristic is not 2 or 3, for every valid
circuit and every input that makes all outputs zero, with every key pair the generator returns and all
randomness, proving succeeds and both verifiers accept. -/
theorem C68_tbcs_complete (h2 : (2 : F) ≠ 0) (h3 : (3 : F) ≠ 0) (P : Pairing F G1 G2 GT)
    (hD : D.Lawful) (c : Tbcs) (hv : c.isValid = true)
    (hm : (c.toUSCS F).numConstraints ≤ D.m) (hm0 : 0 < D.m) (t alpha tilde : F)
    (hwf1 : ∀ g, P.wf1 g = true) (hwf2 : ∀ g, P.wf2 g = true)
    (p a : List Bool) (hp : p.length = c.primaryInputSize) (ha : a.length = c.auxiliaryInputSize)
    (hsat : c.isSatisfied p a = some true) (d : F)
    (pk : Tbcs × UscsPK F G1 G2) (vk : UscsVK G1 G2)
    (hgen : tbcsGenerate P D c t alpha tilde = some (pk, vk)) :
    ∃ π, tbcsProve D pk p a d = some π ∧
      tbcsVerifyStrong P vk p π = some true ∧ tbcsVerifyWeak P vk p π = some true := by
  unfold tbcsGenerate at hgen
  simp only [Option.bind_eq_bind, Option.bind_eq_some_iff, Option.some.injEq, Prod.mk.injEq] at hgen
  obtain ⟨⟨upk, uvk⟩, hugen, rfl, rfl⟩ := hgen
  obtain ⟨w, b, hw, htake, hb, hr⟩ := C22_tbcs_uscs_agree h2 h3 c hv p a hp ha
  rw [hsat, Option.some.injEq] at hb
  subst hb
  have ht : Tbcs.Topo c.numInputs c.gates := by simpa using Tbcs.topo_of_validFrom _ _ 0 hv
  have hlw : w.length = p.length + (a.length + c.gates.length) := by
    obtain ⟨r, h1, h2, -⟩ := Tbcs.satisfied_spec c ht p a (by simp [Tbcs.numInputs, hp, ha])
    rw [Tbcs.witnessMap, h1, Option.map_some, Option.some.injEq] at hw
    rw [← hw]
    simp only [Tbcs.toField, List.length_map, List.length_append]
    omega
  obtain ⟨π, h1, h2, h3⟩ := C53_uscs_complete P hD (c.toUSCS F) (Tbcs.toUSCS_wellRanged c ht) hm hm0 t
    alpha tilde hwf1 hwf2 upk uvk hugen (Tbcs.toField F p) (w.drop p.length)
    (by simp [Tbcs.toField, hp, Tbcs.toUSCS])
    (by rw [List.length_drop, hlw, ha]; simp [Tbcs.toUSCS]) hr d
  refine ⟨π, ?_, h2, h3⟩
  unfold tbcsProve
  simp only [hw, Option.bind_eq_bind, Option.bind_some]
  exact h1

theorem boolean_coeff (h2 : (2 : F) ≠ 0) (i : Nat) :
    uscsCoeff (Tbcs.booleanConstraint i : LinComb F) i ≠ 0 := by
  have h21 : (2 : F) - 1 ≠ 0 := by
    rw [show (2 : F) - 1 = 1 by norm_num]
    exact one_ne_zero
  unfold uscsCoeff Tbcs.booleanConstraint
  simp only [LinComb.sub, LinComb.neg, LinComb.formalValue_add, LinComb.formalValue_scale]
  rcases Nat.eq_zero_or_pos i with rfl | hi
  · simp [formalValue, LinComb.ofConst, LinComb.ofVar, LinComb.termScale]
    rw [← sub_eq_add_neg]
    exact h21
  · simp [formalValue, LinComb.ofConst, LinComb.ofVar, LinComb.termScale, h2, hi.ne]

/-- **C68** (boolean circuits, keys): if the circuit has a gate, key generation fails for few points
only. -/
theorem C68_tbcs_generator (h2 : (2 : F) ≠ 0) (P : Pairing F G1 G2 GT) (hD : D.Lawful) (c : Tbcs)
    (hv : c.isValid = true) (hg : c.gates ≠ []) (hm : (c.toUSCS F).numConstraints ≤ D.m)
    (hm0 : 0 < D.m) (alpha tilde : F) (S : Finset F)
    (hS : ∀ t ∈ S, tbcsGenerate P D c t alpha tilde = none) :
    S.card ≤ (c.primaryInputSize + 1) * (D.m - 1) := by
  have ht : Tbcs.Topo c.numInputs c.gates := by simpa using Tbcs.topo_of_validFrom _ _ 0 hv
  refine C53_generator_defined P hD (c.toUSCS F) (Tbcs.toUSCS_wellRanged c ht) hm hm0 ?_ alpha tilde S
    fun t h => ?_
  · intro i hi
    refine Or.inl ⟨Tbcs.booleanConstraint i, ?_, boolean_coeff h2 i⟩
    have hpos := List.length_pos_iff.mpr hg
    have hi' : i < c.primaryInputSize + 1 := hi
    simp only [Tbcs.toUSCS, List.mem_append, List.mem_map, List.mem_range]
    exact Or.inl (Or.inr ⟨i, by omega, rfl⟩)
  · have := hS t h
    unfold tbcsGenerate at this
    cases hk : uscsGenerate P D (c.toUSCS F) t alpha tilde with
    | none => rfl
    | some k => rw [hk] at this; simp at this

/-- **C68** (finding): a valid circuit without gates whose inputs are all public has no keys: the last
wire appears in no constraint (the booleanity loop runs over the wires `0 .. n - 1`), and the generator's
assertion fails whatever it draws. -/
theorem C68_tbcs_no_gates_no_key (P : Pairing F G1 G2 GT) (hD : D.Lawful) (k : Nat) (hk : 1 ≤ k)
    (hm : k ≤ D.m) (t alpha tilde : F) :
    (⟨k, 0, []⟩ : Tbcs).isValid = true ∧ (⟨k, 0, []⟩ : Tbcs).isSatisfied (List.replicate k false) [] =
      some true ∧ tbcsGenerate P D ⟨k, 0, []⟩ t alpha tilde = none := by
  have hv : (⟨k, 0, []⟩ : Tbcs).isValid = true := by
    simp [Tbcs.isValid, Tbcs.validFrom]
  refine ⟨hv, ?_, ?_⟩
  · simp [Tbcs.isSatisfied, Tbcs.allOutputs, Tbcs.allWires, Tbcs.runGates]
  · have ht : Tbcs.Topo (⟨k, 0, []⟩ : Tbcs).numInputs (⟨k, 0, []⟩ : Tbcs).gates := by
      simpa using Tbcs.topo_of_validFrom _ _ 0 hv
    have := C53_unused_input_no_key P hD ((⟨k, 0, []⟩ : Tbcs).toUSCS F) (Tbcs.toUSCS_wellRanged _ ht)
      (by simp [USCS.numConstraints, Tbcs.toUSCS]; exact hm) k hk (by simp [USCS.numInputs, Tbcs.toUSCS])
      (by
        intro q hq lt hlt
        simp only [Tbcs.toUSCS, List.map_nil, List.nil_append, List.filter_nil, List.append_nil,
          List.mem_map, List.mem_range, List.length_nil] at hq
        obtain ⟨i, hi, rfl⟩ := hq
        have hle : IndicesLE (Tbcs.booleanConstraint i : LinComb F) i := by
          simp only [Tbcs.booleanConstraint, LinComb.sub, LinComb.neg, LinComb.indicesLE_add, LinComb.indicesLE_scale,
            LinComb.ofConst, LinComb.termScale, LinComb.ofVar]
          constructor <;> intro t ht <;> simp only [List.mem_singleton] at ht <;> subst ht <;> simp
        have := hle lt hlt
        omega) t alpha tilde
    unfold tbcsGenerate
    rw [this]
    rfl

section Examples

theorem exDom6 : (EvalDomain.ofPoints 6 (fun i => (i + 1 : ℚ)) 10).Lawful := by
  apply EvalDomain.ofPoints_lawful
  · norm_num
  · intro i _ j _ h; exact_mod_cast (add_right_cancel h)
  · intro i hi j hj
    interval_cases i <;> interval_cases j <;> norm_num

/-- `x1 * x2 = x3` with the output `x3 - 6 * 1 = x4` -/
def exBacs : Bacs ℚ := ⟨2, 0, [⟨[⟨1, 1⟩], [⟨2, 1⟩], 3, false⟩, ⟨[⟨0, -6⟩, ⟨3, 1⟩], [⟨0, 1⟩], 4, true⟩]⟩

example : exBacs.isValid = some true ∧ exBacs.isSatisfied [2, 3] [] = some true ∧
    exBacs.isSatisfied [2, 4] [] = some false ∧ exBacs.toR1CS.numConstraints + 2 + 1 = 6 ∧
    (bacsGenerate exPairing (EvalDomain.ofPoints 6 (fun i => (i + 1 : ℚ)) 10) exBacs
      ⟨7, 2, 3, 5, 7, 11, 13, 17⟩ 2).isSome = true := by
  refine ⟨by decide +kernel, by decide +kernel, by decide +kernel, by decide, by decide +kernel⟩

example (pk vk) (hgen : bacsGenerate exPairing (EvalDomain.ofPoints 6 (fun i => (i + 1 : ℚ)) 10) exBacs
    ⟨7, 2, 3, 5, 7, 11, 13, 17⟩ 2 = some (pk, vk)) (d1 d2 d3 : ℚ) :=
  C68_bacs_complete exPairing exDom6 exBacs (by decide +kernel) (by decide) _ 2 (fun _ => rfl)
    (fun _ => rfl) [2, 3] [] rfl rfl (by decide +kernel) d1 d2 d3 pk vk hgen

/-- `x1 xor x2` as output -/
def exTbcs : Tbcs := ⟨1, 1, [⟨1, 2, .xor, 3, true⟩]⟩

example : exTbcs.isValid = true ∧ exTbcs.isSatisfied [true] [true] = some true ∧
    exTbcs.isSatisfied [true] [false] = some false ∧ exTbcs.gates ≠ [] ∧
    (exTbcs.toUSCS ℚ).numConstraints = 5 ∧
    (tbcsGenerate exPairing (EvalDomain.ofPoints 5 (fun i => (i + 1 : ℚ)) 10) exTbcs 7 3 2).isSome =
      true := by
  refine ⟨by decide, by decide, by decide, by decide, by decide, by decide +kernel⟩

example (pk vk) (hgen : tbcsGenerate exPairing (EvalDomain.ofPoints 5 (fun i => (i + 1 : ℚ)) 10) exTbcs
    7 3 2 = some (pk, vk)) (d : ℚ) :=
  C68_tbcs_complete (by norm_num) (by norm_num) exPairing exDom5 exTbcs (by decide) (by decide)
    (by decide) 7 3 2 (fun _ => rfl) (fun _ => rfl) [true] [true] rfl rfl (by decide) d pk vk hgen

example (t : ℚ) := (C68_tbcs_no_gates_no_key exPairing exDom5 2 (by decide) (by decide) t 3 2).2.2

end Examples

end Crypto3Zk
