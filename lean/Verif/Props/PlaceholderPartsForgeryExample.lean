import Verif.Props.PlaceholderPartsForgery
import Verif.Props.PlaceholderExample

/-!
# C66: a proof of a false statement, with the permutation argument in two parts
-/

set_option linter.unusedSectionVars false

namespace Crypto3Zk

/-- two witness columns, one public input column, one selector; three usable rows of four -/
def exFourthDesc : TableDesc := ⟨2, 1, 0, 1, 3, 4⟩

/-- The first column squared is the second; the second in row zero is the first in row one, and in row one it is the
public input, which is thus a fourth power. -/
def exFourthCircuit : Circuit (ZMod 257) where
  gates := [⟨0, [.bin .sub (.pow (.term ⟨[⟨0, 0, true, .witness⟩], 1⟩) 2) (.term ⟨[⟨1, 0, true, .witness⟩], 1⟩)]⟩]
  copies := [(⟨1, 0, false, .witness⟩, ⟨0, 1, false, .witness⟩),
    (⟨1, 1, false, .witness⟩, ⟨0, 0, false, .publicInput⟩)]
  lookups := ⟨[], []⟩
  publicInputSizes := [1]

/-- witnesses `a` and `b`, the public input `3` -/
def exFourthTable (a0 a1 a2 a3 b0 b1 b2 b3 : ZMod 257) : PlonkTable (ZMod 257) :=
  ⟨[[a0, a1, a2, a3], [b0, b1, b2, b3]], [[3, 0, 0, 0]], [], [[1, 1, 0, 0]]⟩

theorem exFourthSetup : PlaceholderSetup (FftLib.ofRoots exRoots257) 4 2 (2 ^ 64) exFourthDesc exFourthCircuit
    exPlonkOrder (exFourthTable 0 0 0 0 0 0 0 0) where
  lib := exLib257_lawful
  small := by norm_num
  rows := rfl
  usable := by decide
  used := by decide
  width := by decide
  rows32 := by norm_num
  fits := ⟨rfl, rfl, rfl, rfl, by unfold PlonkTable.Rectangular; decide, by decide⟩
  copies := by
    intro c hc v hv
    simp only [exFourthCircuit, List.mem_cons, List.not_mem_nil, or_false] at hc
    rcases hc with rfl | rfl <;> rcases hv with rfl | rfl <;>
      exact ⟨by simp [TableDesc.HasColumn, exFourthDesc], by decide, by decide, by decide⟩
  nodup := by decide
  members := by
    intro v
    constructor
    · intro hv
      simp only [exPlonkOrder, List.mem_cons, List.not_mem_nil, or_false] at hv
      rcases hv with rfl | rfl | rfl <;> decide
    · intro hv
      simp [permutedVars, exFourthCircuit] at hv
      simp [exPlonkOrder]
      tauto
  gates := by
    intro g hg
    simp only [exFourthCircuit, List.mem_singleton] at hg
    subst hg
    refine ⟨by decide, ?_⟩
    intro c hc v hv
    simp only [List.mem_singleton] at hc
    subst hc
    simp only [Expr.visitVars, List.mem_append, List.mem_singleton] at hv
    rcases hv with rfl | rfl <;> exact ⟨_, rfl, by decide⟩
  lookups := by
    refine ⟨fun g hg => ?_, fun tab htab => ?_⟩
    · simp [exFourthCircuit] at hg
    · simp [exFourthCircuit] at htab
  degree := by
    have : exFourthCircuit.maxDegree = 2 := by decide +kernel
    rw [this]
    norm_num
  fuel := le_rfl

theorem exFourthUsed (i : Nat) (r : Int) (h : VarUsed exFourthDesc exFourthCircuit i r) : r = 0 := by
  obtain ⟨v, hv, -, rfl⟩ := h
  revert v
  decide +kernel

theorem exFourthRotations : RotationsDistinct 2 exFourthDesc exFourthCircuit := by
  have h : ∀ i r, (r = 0 ∨ VarUsed exFourthDesc exFourthCircuit i r ∨
      LookupTableUsed exFourthDesc exFourthCircuit i r) → r = 0 := by
    rintro i r (h | h | ⟨h, -⟩)
    · exact h
    · exact exFourthUsed i r h
    · exact absurd rfl h
  intro i r r' h1 h2 _
  rw [h i r h1, h i r' h2]

theorem exFourthPublic : PublicInputOf exFourthDesc exFourthCircuit 2 (exFourthTable 0 0 0 0 0 0 0 0) [[3]] where
  sizes := .inr rfl
  fits := by
    intro i xs h
    obtain rfl : i = 0 := by
      have := (List.getElem?_eq_some_iff.1 h).1
      simpa using this
    simp only [List.getElem?_cons_zero, Option.some.injEq] at h
    subst h
    exact ⟨fun _ => by decide, by decide⟩
  given := by
    intro i xs h
    obtain rfl : i = 0 := by
      have := (List.getElem?_eq_some_iff.1 h).1
      simpa using this
    simp only [List.getElem?_cons_zero, Option.some.injEq] at h
    subst h
    exact ⟨[3, 0, 0, 0], 0, rfl, ⟨.inl rfl, le_rfl, fun r hr => (exFourthUsed _ _ hr).ge⟩, by decide +kernel⟩

theorem exFourthGates : GatesHold (exFourthTable 0 0 0 0 0 0 0 0) exFourthCircuit.gates 3 := by
  intro j hj g hg hs c hc
  simp only [exFourthCircuit, List.mem_singleton] at hg
  subst hg
  simp only [List.mem_singleton] at hc
  subst hc
  interval_cases j
  · decide +kernel
  · decide +kernel
  · exact absurd rfl hs

/-- `3` is not a fourth power modulo 257: no witness satisfies the circuit. -/
theorem exFourth_false (a0 a1 a2 a3 b0 b1 b2 b3 : ZMod 257)
    (hg : GatesHold (exFourthTable a0 a1 a2 a3 b0 b1 b2 b3) exFourthCircuit.gates 3) :
    ¬ CopiesHold exFourthDesc exFourthCircuit.copies (exFourthTable a0 a1 a2 a3 b0 b1 b2 b3).cellAt := by
  intro hc
  have c1 : b0 = a1 := hc _ (List.mem_cons_self ..) (1, 0) (0, 1) rfl rfl
  have c2 : b1 = 3 := hc _ (List.mem_cons_of_mem _ (List.mem_cons_self ..)) (1, 1) (2, 0) rfl rfl
  have hrows : (exFourthTable a0 a1 a2 a3 b0 b1 b2 b3).rowsAmount = 4 := rfl
  have cell : ∀ j < 2, (exFourthTable a0 a1 a2 a3 b0 b1 b2 b3).cell j ⟨0, 0, true, .witness⟩ =
        some ([a0, a1].getD j 0) ∧
      (exFourthTable a0 a1 a2 a3 b0 b1 b2 b3).cell j ⟨1, 0, true, .witness⟩ = some ([b0, b1].getD j 0) := by
    intro j hj
    have hr : rotatedRow 4 j 0 = some j := by interval_cases j <;> decide +kernel
    unfold PlonkTable.cell
    rw [hrows]
    interval_cases j <;> simp [PlonkTable.columnsOf, exFourthTable, hr]
  have g : ∀ j < 2, [a0, a1].getD j 0 ^ 2 - [b0, b1].getD j 0 = 0 := by
    intro j hj
    have := hg j (by omega) _ (List.mem_cons_self ..) (by interval_cases j <;> exact one_ne_zero) _
      (List.mem_cons_self ..)
    simpa [evaluateAtRow, Expr.evalM, (cell j hj).1, (cell j hj).2] using this
  have g0 : a0 ^ 2 - b0 = 0 := g 0 (by norm_num)
  have g1 : a1 ^ 2 - b1 = 0 := g 1 (by norm_num)
  have e : (a0 ^ 2) ^ 2 = 3 := by
    have e1 : a1 = a0 ^ 2 := by linear_combination -g0 - c1
    rw [← e1]
    linear_combination g1 + c2
  have : ∀ a : ZMod 257, (a ^ 2) ^ 2 ≠ 3 := by decide +kernel
  exact this a0 e

/-- **C66**, an example of `C66_parts_forgery`: with a limit of three chunks the permutation argument has two parts.
No witness satisfies the circuit with the public input `3`, and yet there is a transcript with which a proof for it is
accepted over KZG, with assertions, for every trapdoor. -/
theorem C66_parts_example : ∃ T : PlonkTranscript Nat (ZMod 257) Unit (List UInt8),
    ∀ (alpha : ZMod 257) (KT : KzgTranscript Nat (ZMod 257))
      (C : CommScheme (ZMod 257) Nat (List UInt8) (ZMod 257) Bool (KzgScheme (ZMod 257))),
      C = kzgComm (FftLib.ofRoots exRoots257) exPairing257 (batchedKzgSetup exPairing257 4 4 alpha) exCodec257 KT →
      ∃ pd o0 proof,
        placeholderPreprocess C T (FftLib.ofRoots exRoots257) 2 (2 ^ 64) exFourthDesc exFourthCircuit exPlonkOrder 3 3
          () (exFourthTable 0 0 0 0 0 0 0 0) C.new = some (pd, o0) ∧
        placeholderVerifyPublic C T (FftLib.ofRoots exRoots257) 2 true exFourthDesc exFourthCircuit pd.common
          proof o0 [[3]] = some true := by
  obtain ⟨pre, hperm, hpp⟩ := C65_preprocessor_succeeds (mqc := 3) exFourthSetup (by decide +kernel)
    (.inr (by decide +kernel)) 3
  obtain ⟨badGamma, badAlpha, hbg, hba, h⟩ := C102_kzg_parts_forgery (k := 0) exFourthSetup
    (by simp [exFourthCircuit]) rfl rfl exFourthGates (by norm_num) exFourthRotations hperm
  have hcard : (Finset.univ : Finset (ZMod 257)).card = 257 := by rw [Finset.card_univ, ZMod.card]
  obtain ⟨g, hg⟩ : ∃ g, g ∉ badGamma 5 := by
    by_contra hcon
    push Not at hcon
    have h1 := Finset.card_le_card (fun a _ => hcon a : (Finset.univ : Finset (ZMod 257)) ⊆ badGamma 5)
    have h2 := hbg 5
    have : exPlonkOrder.length = 3 := rfl
    omega
  obtain ⟨a, ha⟩ : ∃ a, a ∉ badAlpha 5 g := by
    by_contra hcon
    push Not at hcon
    have h1 := Finset.card_le_card (fun a _ => hcon a : (Finset.univ : Finset (ZMod 257)) ⊆ badAlpha 5 g)
    have h2 := hba 5 g
    omega
  obtain ⟨T, hT⟩ : ∃ T : PlonkTranscript Nat (ZMod 257) Unit (List UInt8),
      T = ⟨0, fun _ s => s, fun _ _ => 0, fun s => (if s = 0 then 5 else if s = 1 then g else a, s + 1)⟩ := ⟨_, rfl⟩
  refine ⟨T, ?_⟩
  intro alpha KT C hC
  obtain ⟨pd, o0, -, hpre⟩ := hpp C T () (Has := fun f c => f.Has (FftLib.ofRoots exRoots257) 4 c) (maxLen := 4)
    (by rw [hC]; exact kzgComm_totalSetup exLib257_lawful (by norm_num) KT)
    (hasLaws_lpc 4 (by norm_num)) (by norm_num)
  obtain ⟨vcom, qcom, stq, hv⟩ := h exPairing257 4 4 alpha exCodec257 exCodec257_lawful (by norm_num) (by norm_num) KT
    T () C hC pd o0 hpre
  obtain ⟨proof, hy, -, hacc⟩ := hv 0 0 (by rw [hT]) (by rw [hT]) (by simpa [hT] using hg)
    (by simpa [hT, drawN] using ha) (by rw [hT]; exact (show (5 : ZMod 257) ≠ 0 by decide))
  refine ⟨pd, o0, proof, hpre, (hacc true).2 (fun k _ hk => ?_) _ exFourthPublic⟩
  have h5 : (5 : ZMod 257) ^ 4 ≠ 1 := by decide
  apply h5
  have hy' : proof.challenge = 5 := by rw [hy, hT]; rfl
  rw [← hy', hk, ← pow_mul, mul_comm, pow_mul]
  have : (FftLib.ofRoots exRoots257).root 2 ^ 4 = 1 := by decide
  rw [this, one_pow]

end Crypto3Zk
