import Verif.Props.PlaceholderBothPartsForgery
import Verif.Props.PlaceholderExample

/-!
# C66: a proof of a false statement, with both arguments in two parts
-/

set_option linter.unusedSectionVars false

namespace Crypto3Zk

/-- two witness columns, one public input column, one constant column, three selectors; three usable rows of four -/
def exMixedDesc : TableDesc := ⟨2, 1, 1, 3, 3, 4⟩

/-- The first column squared is the second; the second in row zero is the first in row one, and in row one it is the
public input, which is thus a fourth power; the root of it, in row zero, is in the lookup table. -/
def exMixedCircuit : Circuit (ZMod 257) where
  gates := [⟨0, [.bin .sub (.pow (.term ⟨[⟨0, 0, true, .witness⟩], 1⟩) 2) (.term ⟨[⟨1, 0, true, .witness⟩], 1⟩)]⟩]
  copies := [(⟨1, 0, false, .witness⟩, ⟨0, 1, false, .witness⟩),
    (⟨1, 1, false, .witness⟩, ⟨0, 0, false, .publicInput⟩)]
  lookups := ⟨[⟨1, [⟨1, [.term ⟨[⟨0, 0, true, .witness⟩], 1⟩]⟩]⟩], [⟨1, 2, [[⟨0, 0, true, .constant⟩]]⟩]⟩
  publicInputSizes := [1]

/-- witnesses `a` and `b`, the public input `81`, and the lookup table `2, 4` in the rows one and two -/
def exMixedTable (a0 a1 a2 a3 b0 b1 b2 b3 : ZMod 257) : PlonkTable (ZMod 257) :=
  ⟨[[a0, a1, a2, a3], [b0, b1, b2, b3]], [[81, 0, 0, 0]], [[0, 2, 4, 0]],
    [[1, 1, 0, 0], [1, 0, 0, 0], [0, 1, 1, 0]]⟩

theorem exMixedSetup : PlaceholderSetup (FftLib.ofRoots exRoots257) 4 2 (2 ^ 64) exMixedDesc exMixedCircuit
    exPlonkOrder (exMixedTable 0 0 0 0 0 0 0 0) where
  lib := exLib257_lawful
  small := by norm_num
  rows := rfl
  usable := by decide
  used := by decide
  width := by decide
  rows32 := by norm_num
  fits := ⟨rfl, rfl, rfl, rfl, by unfold PlonkTable.Rectangular; decide, by decide⟩
  copies := by
    intro c hc v hv
    simp only [exMixedCircuit, List.mem_cons, List.not_mem_nil, or_false] at hc
    rcases hc with rfl | rfl <;> rcases hv with rfl | rfl <;>
      exact ⟨by simp [TableDesc.HasColumn, exMixedDesc], by decide, by decide, by decide⟩
  nodup := by decide
  members := by
    intro v
    constructor
    · intro hv
      simp only [exPlonkOrder, List.mem_cons, List.not_mem_nil, or_false] at hv
      rcases hv with rfl | rfl | rfl <;> decide
    · intro hv
      simp [permutedVars, exMixedCircuit] at hv
      simp [exPlonkOrder]
      tauto
  gates := by
    intro g hg
    simp only [exMixedCircuit, List.mem_singleton] at hg
    subst hg
    refine ⟨by decide, ?_⟩
    intro c hc v hv
    simp only [List.mem_singleton] at hc
    subst hc
    simp only [Expr.visitVars, List.mem_append, List.mem_singleton] at hv
    rcases hv with rfl | rfl <;> exact ⟨_, rfl, by decide⟩
  lookups := by
    refine ⟨fun g hg => ?_, fun tab htab => ?_⟩
    · simp only [exMixedCircuit, List.mem_singleton] at hg
      subst hg
      refine ⟨by decide, fun c hc e he v hv => ?_⟩
      simp only [List.mem_singleton] at hc
      subst hc
      simp only [List.mem_singleton] at he
      subst he
      simp only [Expr.visitVars, List.mem_singleton] at hv
      subst hv
      exact ⟨_, rfl, by decide⟩
    · simp only [exMixedCircuit, List.mem_singleton] at htab
      subst htab
      refine ⟨by decide, fun o ho => ?_⟩
      simp only [List.mem_singleton] at ho
      subst ho
      refine ⟨rfl, fun v hv => ?_⟩
      simp only [List.mem_singleton] at hv
      subst hv
      decide
  degree := by
    have : exMixedCircuit.maxDegree = 2 := by decide +kernel
    rw [this]
    norm_num
  fuel := le_rfl

theorem exMixedUsed (i : Nat) (r : Int) (h : VarUsed exMixedDesc exMixedCircuit i r) : r = 0 := by
  obtain ⟨v, hv, -, rfl⟩ := h
  revert v
  decide +kernel

theorem exMixedRotations : RotationsDistinct 2 exMixedDesc exMixedCircuit := by
  have h : ∀ i r, (r = 0 ∨ VarUsed exMixedDesc exMixedCircuit i r ∨
      LookupTableUsed exMixedDesc exMixedCircuit i r) → r = 0 ∨ r = 1 := by
    rintro i r (h | h | ⟨-, h, -⟩)
    · exact .inl h
    · exact .inl (exMixedUsed i r h)
    · exact .inr h
  intro i r r' h1 h2 hm
  rcases h i r h1 with rfl | rfl <;> rcases h i r' h2 with rfl | rfl
  · rfl
  · exact absurd hm (by decide)
  · exact absurd hm (by decide)
  · rfl

theorem exMixedPublic : PublicInputOf exMixedDesc exMixedCircuit 2 (exMixedTable 0 0 0 0 0 0 0 0) [[81]] where
  sizes := .inr rfl
  fits := by
    intro i xs h
    obtain rfl : i = 0 := by
      have := (List.getElem?_eq_some_iff.1 h).1
      simpa using this
    simp only [List.getElem?_cons_zero, Option.some.injEq] at h
    subst h
    exact ⟨fun _ => by decide, by decide⟩
  given := by
    intro i xs h
    obtain rfl : i = 0 := by
      have := (List.getElem?_eq_some_iff.1 h).1
      simpa using this
    simp only [List.getElem?_cons_zero, Option.some.injEq] at h
    subst h
    exact ⟨[81, 0, 0, 0], 0, rfl, ⟨.inl rfl, le_rfl, fun r hr => (exMixedUsed _ _ hr).ge⟩, by decide +kernel⟩

theorem exMixedGates : GatesHold (exMixedTable 0 0 0 0 0 0 0 0) exMixedCircuit.gates 3 := by
  intro j hj g hg hs c hc
  simp only [exMixedCircuit, List.mem_singleton] at hg
  subst hg
  simp only [List.mem_singleton] at hc
  subst hc
  interval_cases j
  · decide +kernel
  · decide +kernel
  · exact absurd rfl hs

/-- No witness satisfies the circuit with the public input `81`: its fourth roots are not in the lookup table. -/
theorem exMixed_false (a0 a1 a2 a3 b0 b1 b2 b3 : ZMod 257)
    (hg : GatesHold (exMixedTable a0 a1 a2 a3 b0 b1 b2 b3) exMixedCircuit.gates 3)
    (hc : CopiesHold exMixedDesc exMixedCircuit.copies (exMixedTable a0 a1 a2 a3 b0 b1 b2 b3).cellAt) :
    ¬ LookupsHold (exMixedTable a0 a1 a2 a3 b0 b1 b2 b3) exMixedCircuit.lookups 3 := by
  intro hl
  have c1 : b0 = a1 := hc _ (List.mem_cons_self ..) (1, 0) (0, 1) rfl rfl
  have c2 : b1 = 81 := hc _ (List.mem_cons_of_mem _ (List.mem_cons_self ..)) (1, 1) (2, 0) rfl rfl
  have hrows : (exMixedTable a0 a1 a2 a3 b0 b1 b2 b3).rowsAmount = 4 := rfl
  have cell : ∀ j < 2, (exMixedTable a0 a1 a2 a3 b0 b1 b2 b3).cell j ⟨0, 0, true, .witness⟩ =
        some ([a0, a1].getD j 0) ∧
      (exMixedTable a0 a1 a2 a3 b0 b1 b2 b3).cell j ⟨1, 0, true, .witness⟩ = some ([b0, b1].getD j 0) := by
    intro j hj
    have hr : rotatedRow 4 j 0 = some j := by interval_cases j <;> decide +kernel
    unfold PlonkTable.cell
    rw [hrows]
    interval_cases j <;> simp [PlonkTable.columnsOf, exMixedTable, hr]
  have g : ∀ j < 2, [a0, a1].getD j 0 ^ 2 - [b0, b1].getD j 0 = 0 := by
    intro j hj
    have := hg j (by omega) _ (List.mem_cons_self ..) (by interval_cases j <;> exact one_ne_zero) _
      (List.mem_cons_self ..)
    simpa [evaluateAtRow, Expr.evalM, (cell j hj).1, (cell j hj).2] using this
  have g0 : a0 ^ 2 - b0 = 0 := g 0 (by norm_num)
  have g1 : a1 ^ 2 - b1 = 0 := g 1 (by norm_num)
  have e : (a0 ^ 2) ^ 2 = 81 := by
    have e1 : a1 = a0 ^ 2 := by linear_combination -g0 - c1
    rw [← e1]
    linear_combination g1 + c2
  have h2 : a0 = 2 ∨ a0 = 4 := by
    obtain ⟨k, tab, hk, -, o, ho, i, hi, hs, h⟩ := hl 0 (by norm_num) _ (List.mem_cons_self ..) one_ne_zero _
      (List.mem_cons_self ..)
    obtain rfl := List.mem_singleton.1 (List.mem_of_getElem? hk)
    obtain rfl := List.mem_singleton.1 ho
    simp only [List.map_cons, List.map_nil, evaluateAtRow, Expr.evalM, List.foldlM_cons, List.foldlM_nil,
      (cell 0 (by norm_num)).1, optionRow] at h
    simp only [Option.pure_def, Option.bind_eq_bind, Option.bind_some, one_mul, List.cons.injEq, Option.some.injEq,
      and_true] at h
    have h' : a0 = ((exMixedTable a0 a1 a2 a3 b0 b1 b2 b3).constantAt 0 i) := h
    rw [h']
    interval_cases i
    · exact absurd rfl hs
    · exact .inl rfl
    · exact .inr rfl
  rcases h2 with rfl | rfl
  · exact absurd e (by decide)
  · exact absurd e (by decide)

/-- **C66**, an example of `C66_both_parts_forgery`: with a limit of three chunks each argument has two parts. No
witness satisfies the circuit with the public input `81` (`exMixed_false`), and the table that is used violates copy
constraints and lookups; yet there is a transcript with which a proof for it is accepted over KZG, with assertions, for
every trapdoor. -/
theorem C66_both_parts_example : ∃ T : PlonkTranscript Nat (ZMod 257) Unit (List UInt8),
    ∀ (alpha : ZMod 257) (KT : KzgTranscript Nat (ZMod 257))
      (C : CommScheme (ZMod 257) Nat (List UInt8) (ZMod 257) Bool (KzgScheme (ZMod 257))),
      C = kzgComm (FftLib.ofRoots exRoots257) exPairing257 (batchedKzgSetup exPairing257 4 4 alpha) exCodec257 KT →
      ∃ pd o0 proof,
        placeholderPreprocess C T (FftLib.ofRoots exRoots257) 2 (2 ^ 64) exMixedDesc exMixedCircuit exPlonkOrder 3 3
          () (exMixedTable 0 0 0 0 0 0 0 0) C.new = some (pd, o0) ∧
        placeholderVerifyPublic C T (FftLib.ofRoots exRoots257) 2 true exMixedDesc exMixedCircuit pd.common
          proof o0 [[81]] = some true := by
  obtain ⟨pre, hperm, hpp⟩ := C65_preprocessor_succeeds (mqc := 3) exMixedSetup (by decide +kernel)
    (.inr (by decide +kernel)) 3
  obtain ⟨badGamma, badPart, badAlpha, hbg, hbp, hba, h⟩ := C102_kzg_both_parts_forgery (kp := 0) (k := 0) (mqc := 3)
    exMixedSetup (by simp [exMixedCircuit]) (by simp [exMixedCircuit]) rfl (by decide +kernel) (by decide +kernel)
    exMixedGates (by norm_num) exMixedRotations (by decide) hperm
  have hcard : (Finset.univ : Finset (ZMod 257)).card = 257 := by rw [Finset.card_univ, ZMod.card]
  obtain ⟨g, hg⟩ : ∃ g, g ∉ insert 0 (badGamma 5) := by
    by_contra hcon
    push Not at hcon
    have h1 := Finset.card_le_card (fun a _ => hcon a : (Finset.univ : Finset (ZMod 257)) ⊆ insert 0 (badGamma 5))
    have h2 := hbg 5
    have h3 := Finset.card_insert_le 0 (badGamma 5)
    have : exPlonkOrder.length = 3 := rfl
    omega
  obtain ⟨hg0, hg⟩ : g ≠ 0 ∧ g ∉ badGamma 5 := by simpa using hg
  obtain ⟨a, ha⟩ : ∃ a, a ∉ badPart 5 g ∪ badAlpha 1 5 g := by
    by_contra hcon
    push Not at hcon
    have h1 := Finset.card_le_card (fun a _ => hcon a : (Finset.univ : Finset (ZMod 257)) ⊆
      badPart 5 g ∪ badAlpha 1 5 g)
    have h2 := hbp 5 g
    have h3 := hba 1 5 g
    have h4 := Finset.card_union_le (badPart 5 g) (badAlpha 1 5 g)
    omega
  obtain ⟨hap, ha⟩ : a ∉ badPart 5 g ∧ a ∉ badAlpha 1 5 g := by simpa using ha
  obtain ⟨T, hT⟩ : ∃ T : PlonkTranscript Nat (ZMod 257) Unit (List UInt8),
      T = ⟨0, fun _ s => s, fun _ _ => 0, fun s => 
        (if s = 0 then 5 else if s = 1 then g else if s = 2 then a else 1, s + 1)⟩ := ⟨_, rfl⟩
  refine ⟨T, ?_⟩
  intro alpha KT C hC
  obtain ⟨pd, o0, -, hpre⟩ := hpp C T () (Has := fun f c => f.Has (FftLib.ofRoots exRoots257) 4 c) (maxLen := 4)
    (by rw [hC]; exact kzgComm_totalSetup exLib257_lawful (by norm_num) KT)
    (hasLaws_lpc 4 (by norm_num)) (by norm_num)
  obtain ⟨vcom, lcom, qcom, stq, hv⟩ := h exPairing257 4 4 alpha exCodec257 exCodec257_lawful (by norm_num) (by norm_num) KT
    T () C hC pd o0 hpre
  obtain ⟨proof, hy, -, hacc⟩ := hv 0 3 0 0 (by rw [hT]) (by rw [hT]; rfl) (by rw [hT]) (by rw [hT])
    (by simpa [hT] using hg) (by simpa [hT, drawN] using hap)
    (by rw [hT]; exact (show (5 : ZMod 257) ≠ -1 by decide)) (by simpa [hT] using hg0)
    (by simpa [hT, drawN] using ha) (by rw [hT]; exact (show (5 : ZMod 257) ≠ 0 by decide))
  refine ⟨pd, o0, proof, hpre, (hacc true).2 (fun k _ hk => ?_) _ exMixedPublic⟩
  have h5 : (5 : ZMod 257) ^ 4 ≠ 1 := by decide
  apply h5
  have hy' : proof.challenge = 5 := by rw [hy, hT]; rfl
  rw [← hy', hk, ← pow_mul, mul_comm, pow_mul]
  have : (FftLib.ofRoots exRoots257).root 2 ^ 4 = 1 := by decide
  rw [this, one_pow]

end Crypto3Zk
