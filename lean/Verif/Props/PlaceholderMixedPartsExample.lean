import Verif.Props.PlaceholderCopiesLookupParts
import Verif.Props.PlaceholderLookupsParts
import Verif.Props.PlaceholderBothPartsExample

/-!
# C66: proofs of a false statement, with one of the arguments done honestly

The circuit and the statement are those of `C66_both_parts_example`: no witness satisfies it (`exMixed_false`).
-/

set_option linter.unusedSectionVars false

namespace Crypto3Zk

/-! ## copy constraints hold, lookups do not -/

theorem exMixedSetupA : PlaceholderSetup (FftLib.ofRoots exRoots257) 4 2 (2 ^ 64) exMixedDesc exMixedCircuit
    exPlonkOrder (exMixedTable 3 9 0 0 9 81 0 0) where
  lib := exLib257_lawful
  small := by norm_num
  rows := rfl
  usable := by decide
  used := by decide
  width := by decide
  rows32 := by norm_num
  fits := ⟨rfl, rfl, rfl, rfl, by unfold PlonkTable.Rectangular; decide, by decide⟩
  copies := by
    intro c hc v hv
    simp only [exMixedCircuit, List.mem_cons, List.not_mem_nil, or_false] at hc
    rcases hc with rfl | rfl <;> rcases hv with rfl | rfl <;>
      exact ⟨by simp [TableDesc.HasColumn, exMixedDesc], by decide, by decide, by decide⟩
  nodup := by decide
  members := by
    intro v
    constructor
    · intro hv
      simp only [exPlonkOrder, List.mem_cons, List.not_mem_nil, or_false] at hv
      rcases hv with rfl | rfl | rfl <;> decide
    · intro hv
      simp [permutedVars, exMixedCircuit] at hv
      simp [exPlonkOrder]
      tauto
  gates := by
    intro g hg
    simp only [exMixedCircuit, List.mem_singleton] at hg
    subst hg
    refine ⟨by decide, ?_⟩
    intro c hc v hv
    simp only [List.mem_singleton] at hc
    subst hc
    simp only [Expr.visitVars, List.mem_append, List.mem_singleton] at hv
    rcases hv with rfl | rfl <;> exact ⟨_, rfl, by decide⟩
  lookups := by
    refine ⟨fun g hg => ?_, fun tab htab => ?_⟩
    · simp only [exMixedCircuit, List.mem_singleton] at hg
      subst hg
      refine ⟨by decide, fun c hc e he v hv => ?_⟩
      simp only [List.mem_singleton] at hc
      subst hc
      simp only [List.mem_singleton] at he
      subst he
      simp only [Expr.visitVars, List.mem_singleton] at hv
      subst hv
      exact ⟨_, rfl, by decide⟩
    · simp only [exMixedCircuit, List.mem_singleton] at htab
      subst htab
      refine ⟨by decide, fun o ho => ?_⟩
      simp only [List.mem_singleton] at ho
      subst ho
      refine ⟨rfl, fun v hv => ?_⟩
      simp only [List.mem_singleton] at hv
      subst hv
      decide
  degree := by
    have : exMixedCircuit.maxDegree = 2 := by decide +kernel
    rw [this]
    norm_num
  fuel := le_rfl

theorem exMixedPublicA : PublicInputOf exMixedDesc exMixedCircuit 2 (exMixedTable 3 9 0 0 9 81 0 0) [[81]] where
  sizes := .inr rfl
  fits := by
    intro i xs h
    obtain rfl : i = 0 := by
      have := (List.getElem?_eq_some_iff.1 h).1
      simpa using this
    simp only [List.getElem?_cons_zero, Option.some.injEq] at h
    subst h
    exact ⟨fun _ => by decide, by decide⟩
  given := by
    intro i xs h
    obtain rfl : i = 0 := by
      have := (List.getElem?_eq_some_iff.1 h).1
      simpa using this
    simp only [List.getElem?_cons_zero, Option.some.injEq] at h
    subst h
    exact ⟨[81, 0, 0, 0], 0, rfl, ⟨.inl rfl, le_rfl, fun r hr => (exMixedUsed _ _ hr).ge⟩, by decide +kernel⟩

theorem exMixedGatesA : GatesHold (exMixedTable 3 9 0 0 9 81 0 0) exMixedCircuit.gates 3 := by
  intro j hj g hg hs c hc
  simp only [exMixedCircuit, List.mem_singleton] at hg
  subst hg
  simp only [List.mem_singleton] at hc
  subst hc
  interval_cases j
  · decide +kernel
  · decide +kernel
  · exact absurd rfl hs

theorem exMixedCopiesA : CopiesHold exMixedDesc exMixedCircuit.copies (exMixedTable 3 9 0 0 9 81 0 0).cellAt := by
  intro c hc x y hx hy
  simp only [exMixedCircuit, List.mem_cons, List.not_mem_nil, or_false] at hc
  rcases hc with rfl | rfl
  all_goals
    simp only [TableDesc.cellOf, TableDesc.globalIndex, Option.map_some, Option.some.injEq] at hx hy
    subst hx hy
    decide +kernel

/-- **C66**, an example of `C66_copies_lookup_parts_forgery`: with a limit of four chunks the permutation argument has one
part and the lookup argument two. The table satisfies the gates and the copy constraints, and `3` is not in the lookup
table; the proof is accepted over KZG, with assertions, for every trapdoor. -/
theorem C66_copies_lookup_parts_example : ∃ T : PlonkTranscript Nat (ZMod 257) Unit (List UInt8),
    ∀ (alpha : ZMod 257) (KT : KzgTranscript Nat (ZMod 257))
      (C : CommScheme (ZMod 257) Nat (List UInt8) (ZMod 257) Bool (KzgScheme (ZMod 257))),
      C = kzgComm (FftLib.ofRoots exRoots257) exPairing257 (batchedKzgSetup exPairing257 4 4 alpha) exCodec257 KT →
      ∃ pd o0 proof,
        placeholderPreprocess C T (FftLib.ofRoots exRoots257) 2 (2 ^ 64) exMixedDesc exMixedCircuit exPlonkOrder 3 4
          () (exMixedTable 3 9 0 0 9 81 0 0) C.new = some (pd, o0) ∧
        placeholderVerifyPublic C T (FftLib.ofRoots exRoots257) 2 true exMixedDesc exMixedCircuit pd.common
          proof o0 [[81]] = some true := by
  obtain ⟨pre, hperm, hpp⟩ := C65_preprocessor_succeeds (mqc := 4) exMixedSetupA (by decide +kernel)
    (.inr (by decide +kernel)) 3
  obtain ⟨badGamma, badAlpha, hbg, hba, h⟩ := C102_kzg_copies_lookup_parts_forgery (kp := 0) (k := 0) (mqc := 4)
    exMixedSetupA (by simp [exMixedCircuit]) (by simp [exMixedCircuit]) rfl (by decide +kernel) (by decide +kernel)
    exMixedCopiesA exMixedGatesA (by norm_num) exMixedRotations (by decide) hperm
  have hcard : (Finset.univ : Finset (ZMod 257)).card = 257 := by rw [Finset.card_univ, ZMod.card]
  obtain ⟨g, hg⟩ : ∃ g, g ∉ insert 0 (badGamma 5) := by
    by_contra hcon
    push Not at hcon
    have h1 := Finset.card_le_card (fun a _ => hcon a : (Finset.univ : Finset (ZMod 257)) ⊆ insert 0 (badGamma 5))
    have h2 := hbg 5
    have h3 := Finset.card_insert_le 0 (badGamma 5)
    have : exPlonkOrder.length = 3 := rfl
    rw [this] at h2
    omega
  obtain ⟨hg0, hg⟩ : g ≠ 0 ∧ g ∉ badGamma 5 := by simpa using hg
  obtain ⟨a, ha⟩ : ∃ a, a ∉ badAlpha 1 5 g := by
    by_contra hcon
    push Not at hcon
    have h1 := Finset.card_le_card (fun a _ => hcon a : (Finset.univ : Finset (ZMod 257)) ⊆ badAlpha 1 5 g)
    have h3 := hba 1 5 g
    omega
  obtain ⟨T, hT⟩ : ∃ T : PlonkTranscript Nat (ZMod 257) Unit (List UInt8),
      T = ⟨0, fun _ s => s, fun _ s => if s = 3 then 10 else 0, fun s => (if s = 0 ∨ s = 10 then 5 else
        if s = 1 ∨ s = 11 then g else if s = 12 then a else 1, s + 1)⟩ := ⟨_, rfl⟩
  refine ⟨T, ?_⟩
  intro alpha KT C hC
  obtain ⟨pd, o0, -, hpre⟩ := hpp C T () (Has := fun f c => f.Has (FftLib.ofRoots exRoots257) 4 c) (maxLen := 4)
    (by rw [hC]; exact kzgComm_totalSetup exLib257_lawful (by norm_num) KT)
    (hasLaws_lpc 4 (by norm_num)) (by norm_num)
  obtain ⟨vcom, lcom, qcom, stq, hv⟩ := h exPairing257 4 4 alpha exCodec257 exCodec257_lawful (by norm_num) (by norm_num) KT
    T () C hC pd o0 hpre
  have hy5 : (T.challenge (T.absorb qcom stq)).1 = 5 := by
    rw [hT]
    by_cases hs : stq = 3
    · simp [hs]
    · simp [hs]
  obtain ⟨proof, hy, -, hacc⟩ := hv 0 2 10 _ (by rw [hC, hT]; rfl) (by rw [hT]; rfl) (by rw [hT]; rfl) rfl
    (by simpa [hT] using hg) (by rw [hT]; exact (show (5 : ZMod 257) ≠ -1 by decide)) (by simpa [hT] using hg0)
    (by simpa [hT, drawN] using ha) (by rw [hy5]; decide)
  refine ⟨pd, o0, proof, hpre, (hacc true).2 (fun k _ hk => ?_) _ exMixedPublicA⟩
  have h5 : (5 : ZMod 257) ^ 4 ≠ 1 := by decide
  apply h5
  have hy' : proof.challenge = 5 := hy.trans hy5
  rw [← hy', hk, ← pow_mul, mul_comm, pow_mul]
  have : (FftLib.ofRoots exRoots257).root 2 ^ 4 = 1 := by decide
  rw [this, one_pow]

/-! ## lookups hold, copy constraints do not -/

theorem exMixedSetupB : PlaceholderSetup (FftLib.ofRoots exRoots257) 4 2 (2 ^ 64) exMixedDesc exMixedCircuit
    exPlonkOrder (exMixedTable 2 0 0 0 4 0 0 0) where
  lib := exLib257_lawful
  small := by norm_num
  rows := rfl
  usable := by decide
  used := by decide
  width := by decide
  rows32 := by norm_num
  fits := ⟨rfl, rfl, rfl, rfl, by unfold PlonkTable.Rectangular; decide, by decide⟩
  copies := by
    intro c hc v hv
    simp only [exMixedCircuit, List.mem_cons, List.not_mem_nil, or_false] at hc
    rcases hc with rfl | rfl <;> rcases hv with rfl | rfl <;>
      exact ⟨by simp [TableDesc.HasColumn, exMixedDesc], by decide, by decide, by decide⟩
  nodup := by decide
  members := by
    intro v
    constructor
    · intro hv
      simp only [exPlonkOrder, List.mem_cons, List.not_mem_nil, or_false] at hv
      rcases hv with rfl | rfl | rfl <;> decide
    · intro hv
      simp [permutedVars, exMixedCircuit] at hv
      simp [exPlonkOrder]
      tauto
  gates := by
    intro g hg
    simp only [exMixedCircuit, List.mem_singleton] at hg
    subst hg
    refine ⟨by decide, ?_⟩
    intro c hc v hv
    simp only [List.mem_singleton] at hc
    subst hc
    simp only [Expr.visitVars, List.mem_append, List.mem_singleton] at hv
    rcases hv with rfl | rfl <;> exact ⟨_, rfl, by decide⟩
  lookups := by
    refine ⟨fun g hg => ?_, fun tab htab => ?_⟩
    · simp only [exMixedCircuit, List.mem_singleton] at hg
      subst hg
      refine ⟨by decide, fun c hc e he v hv => ?_⟩
      simp only [List.mem_singleton] at hc
      subst hc
      simp only [List.mem_singleton] at he
      subst he
      simp only [Expr.visitVars, List.mem_singleton] at hv
      subst hv
      exact ⟨_, rfl, by decide⟩
    · simp only [exMixedCircuit, List.mem_singleton] at htab
      subst htab
      refine ⟨by decide, fun o ho => ?_⟩
      simp only [List.mem_singleton] at ho
      subst ho
      refine ⟨rfl, fun v hv => ?_⟩
      simp only [List.mem_singleton] at hv
      subst hv
      decide
  degree := by
    have : exMixedCircuit.maxDegree = 2 := by decide +kernel
    rw [this]
    norm_num
  fuel := le_rfl

theorem exMixedPublicB : PublicInputOf exMixedDesc exMixedCircuit 2 (exMixedTable 2 0 0 0 4 0 0 0) [[81]] where
  sizes := .inr rfl
  fits := by
    intro i xs h
    obtain rfl : i = 0 := by
      have := (List.getElem?_eq_some_iff.1 h).1
      simpa using this
    simp only [List.getElem?_cons_zero, Option.some.injEq] at h
    subst h
    exact ⟨fun _ => by decide, by decide⟩
  given := by
    intro i xs h
    obtain rfl : i = 0 := by
      have := (List.getElem?_eq_some_iff.1 h).1
      simpa using this
    simp only [List.getElem?_cons_zero, Option.some.injEq] at h
    subst h
    exact ⟨[81, 0, 0, 0], 0, rfl, ⟨.inl rfl, le_rfl, fun r hr => (exMixedUsed _ _ hr).ge⟩, by decide +kernel⟩

theorem exMixedGatesB : GatesHold (exMixedTable 2 0 0 0 4 0 0 0) exMixedCircuit.gates 3 := by
  intro j hj g hg hs c hc
  simp only [exMixedCircuit, List.mem_singleton] at hg
  subst hg
  simp only [List.mem_singleton] at hc
  subst hc
  interval_cases j
  · decide +kernel
  · decide +kernel
  · exact absurd rfl hs

theorem exMixedLookupsB : LookupsSatisfied (exMixedTable 2 0 0 0 4 0 0 0) exMixedCircuit.lookups 3 2 where
  wellFormed := by
    refine ⟨?_, by decide, by decide⟩
    intro g hg c hc
    simp only [exMixedCircuit, List.mem_singleton] at hg
    subst hg
    simp only [List.mem_singleton] at hc
    subst hc
    exact ⟨0, _, rfl, rfl, rfl⟩
  tags := by
    intro j hj
    refine ⟨fun g hg => ?_, fun tab htab => ?_⟩
    · simp only [exMixedCircuit, List.mem_singleton] at hg
      subst hg
      interval_cases j <;> simp [PlonkTable.selectorAt, exMixedTable]
    · simp only [exMixedCircuit, List.mem_singleton] at htab
      subst htab
      interval_cases j <;> simp [PlonkTable.selectorAt, exMixedTable]
  laidOut := by
    refine ⟨by decide, ?_, ?_⟩
    · intro tab htab
      simp only [exMixedCircuit, List.mem_singleton] at htab
      subst htab
      simp [PlonkTable.selectorAt, exMixedTable]
    · have : tableEntries (exMixedTable 2 0 0 0 4 0 0 0) exMixedCircuit.lookups 3 = [none, some (1, [2]), some (1, [4])] := by
        simp [tableEntries, exMixedCircuit, exMixedTable, PlonkTable.selectorAt, optionRow,
          PlonkTable.constantAt, List.range_succ]
      rw [this]
      intro i j k hij hjk hk
      simp only [List.length_cons, List.length_nil] at hk
      interval_cases k <;> interval_cases j <;> interval_cases i <;> decide
  hold := by
    intro j hj g hg hs c hc
    simp only [exMixedCircuit, List.mem_singleton] at hg
    subst hg
    simp only [List.mem_singleton] at hc
    subst hc
    refine ⟨0, _, rfl, rfl, _, List.mem_singleton.2 rfl, ?_⟩
    interval_cases j
    · exact ⟨1, by norm_num, by decide +kernel, by decide +kernel⟩
    · exact absurd rfl hs
    · exact absurd rfl hs
  columns := by decide

/-- **C66**, an example of `C66_lookups_parts_forgery`: the table satisfies the gates and the lookups, and violates the
copy constraints; the proof is accepted over KZG, with assertions, for every trapdoor. -/
theorem C66_lookups_parts_example : ∃ T : PlonkTranscript Nat (ZMod 257) Unit (List UInt8),
    ∀ (alpha : ZMod 257) (KT : KzgTranscript Nat (ZMod 257))
      (C : CommScheme (ZMod 257) Nat (List UInt8) (ZMod 257) Bool (KzgScheme (ZMod 257))),
      C = kzgComm (FftLib.ofRoots exRoots257) exPairing257 (batchedKzgSetup exPairing257 4 4 alpha) exCodec257 KT →
      ∃ pd o0 proof,
        placeholderPreprocess C T (FftLib.ofRoots exRoots257) 2 (2 ^ 64) exMixedDesc exMixedCircuit exPlonkOrder 3 3
          () (exMixedTable 2 0 0 0 4 0 0 0) C.new = some (pd, o0) ∧
        placeholderVerifyPublic C T (FftLib.ofRoots exRoots257) 2 true exMixedDesc exMixedCircuit pd.common
          proof o0 [[81]] = some true := by
  obtain ⟨pre, hperm, hpp⟩ := C65_preprocessor_succeeds (mqc := 3) exMixedSetupB (by decide +kernel)
    (.inr (by decide +kernel)) 3
  obtain ⟨badGamma, badPart, badTheta, badLookup, hbg, hbp, hbt, hbl, h⟩ := C102_kzg_lookups_parts_forgery (kp := 0)
    (k := 1) (mqc := 3) exMixedSetupB (by simp [exMixedCircuit]) (by simp [exMixedCircuit]) rfl (by decide +kernel)
    (by decide +kernel) exMixedLookupsB exMixedGatesB (by norm_num) exMixedRotations (by decide) hperm
  have hic : exMixedCircuit.lookups.inputCount = 1 := by decide +kernel
  have hoc : exMixedCircuit.lookups.optionCount = 1 := by decide +kernel
  rw [hoc] at hbt
  rw [hic, hoc] at hbl
  simp only [exMixedDesc] at hbt hbl
  have hcard : (Finset.univ : Finset (ZMod 257)).card = 257 := by rw [Finset.card_univ, ZMod.card]
  obtain ⟨th, hth⟩ : ∃ th, th ∉ badTheta := by
    by_contra hcon
    push Not at hcon
    have h1 := Finset.card_le_card (fun a _ => hcon a : (Finset.univ : Finset (ZMod 257)) ⊆ badTheta)
    omega
  obtain ⟨g, hg⟩ : ∃ g, g ∉ badGamma 5 ∪ badLookup th 5 := by
    by_contra hcon
    push Not at hcon
    have h1 := Finset.card_le_card (fun a _ => hcon a : (Finset.univ : Finset (ZMod 257)) ⊆
      badGamma 5 ∪ badLookup th 5)
    have h2 := hbg 5
    have h3 := hbl th 5
    have h4 := Finset.card_union_le (badGamma 5) (badLookup th 5)
    have : exPlonkOrder.length = 3 := rfl
    omega
  obtain ⟨hg, hgl⟩ : g ∉ badGamma 5 ∧ g ∉ badLookup th 5 := by simpa using hg
  obtain ⟨a, ha⟩ : ∃ a, a ∉ badPart 5 g := by
    by_contra hcon
    push Not at hcon
    have h1 := Finset.card_le_card (fun a _ => hcon a : (Finset.univ : Finset (ZMod 257)) ⊆ badPart 5 g)
    have h2 := hbp 5 g
    omega
  obtain ⟨T, hT⟩ : ∃ T : PlonkTranscript Nat (ZMod 257) Unit (List UInt8),
      T = ⟨0, fun _ s => s, fun _ _ => 0, fun s => 
        (if s = 0 then 5 else if s = 1 then g else if s = 2 then a else th, s + 1)⟩ := ⟨_, rfl⟩
  refine ⟨T, ?_⟩
  intro alpha KT C hC
  obtain ⟨pd, o0, -, hpre⟩ := hpp C T () (Has := fun f c => f.Has (FftLib.ofRoots exRoots257) 4 c) (maxLen := 4)
    (by rw [hC]; exact kzgComm_totalSetup exLib257_lawful (by norm_num) KT)
    (hasLaws_lpc 4 (by norm_num)) (by norm_num)
  obtain ⟨vcom, lcom, qcom, stq, hv⟩ := h exPairing257 4 4 alpha exCodec257 exCodec257_lawful (by norm_num) (by norm_num) KT
    T () C hC pd o0 hpre
  obtain ⟨proof, hy, -, hacc⟩ := hv 0 3 0 0 (by rw [hT]) (by rw [hT]; rfl) (by rw [hT]) (by rw [hT])
    (by simpa [hT] using hg) (by simpa [hT, drawN] using ha) (by simpa [hT] using hth)
    (by rw [hT]; exact (show (5 : ZMod 257) ≠ -1 by decide)) (by simpa [hT] using hgl)
    (by rw [hT]; exact (show (5 : ZMod 257) ≠ 0 by decide))
  refine ⟨pd, o0, proof, hpre, (hacc true).2 (fun k _ hk => ?_) _ exMixedPublicB⟩
  have h5 : (5 : ZMod 257) ^ 4 ≠ 1 := by decide
  apply h5
  have hy' : proof.challenge = 5 := by rw [hy, hT]; rfl
  rw [← hy', hk, ← pow_mul, mul_comm, pow_mul]
  have : (FftLib.ofRoots exRoots257).root 2 ^ 4 = 1 := by decide
  rw [this, one_pow]

end Crypto3Zk
