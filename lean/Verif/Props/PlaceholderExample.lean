import Verif.Props.PlaceholderTotal
import Verif.Props.PlaceholderPublic

/-!
# A concrete run of the placeholder proof system

A circuit with a gate, copy constraints, a lookup and a public input, over a field with 257 elements: the
hypotheses of C37, C38, C61 and C65 are met together.
-/

set_option linter.unusedSectionVars false

namespace Crypto3Zk

section
variable {F : Type} [Field F] [DecidableEq F]

/-- C65: the hypothesis on the challenges can be met, whatever the bad values are (if they and a set `X` of
other values to avoid do not exhaust the field): there is a transcript none of whose challenges is in `X`,
and with which every prover avoids the bad values. -/
theorem C65_challenges_exist [Fintype F] (n : Nat) (c : Circuit F) (t : PlonkTable F) (usable parts : Nat)
    (badP : F → Finset F) (badT : Finset F) (badL : F → F → Finset F) (X : Finset F)
    (hP : ∀ beta, (badP beta).card + X.card < Fintype.card F) (hT : badT.card + X.card < Fintype.card F)
    (hL : ∀ theta beta, (badL theta beta).card + X.card < Fintype.card F)
    (hX : 1 + X.card < Fintype.card F) (k0 : Nat) (H Com : Type) :
    ∃ T : PlonkTranscript Nat F H Com, (∀ k, (T.challenge k).1 ∉ X) ∧ (∀ h com, T.key h com = 0) ∧
      ∀ {Pr Data Obj : Type} (C : CommScheme F Nat Com Pr Data Obj) (s0 : Nat × Obj), s0.1 = k0 →
        ChallengesAvoid C T n c t usable parts s0 badP badT badL := by
  have key : ∀ B : Finset F, B.card + X.card < Fintype.card F → ∃ x, x ∉ B ∧ x ∉ X := by
    intro B hB
    by_contra hcon
    push Not at hcon
    have h1 : (Finset.univ : Finset F) ⊆ B ∪ X := fun a _ => by
      by_cases ha : a ∈ B
      · exact Finset.mem_union_left _ ha
      · exact Finset.mem_union_right _ (hcon a ha)
    have h2 := Finset.card_le_card h1
    have h3 := Finset.card_union_le B X
    rw [Finset.card_univ] at h2
    omega
  obtain ⟨v, hv1, hv2⟩ := key {-1} (by simpa using hX)
  obtain ⟨gamma, hg1, hg2⟩ := key (badP v) (hP v)
  obtain ⟨theta, ht1, ht2⟩ := key badT hT
  obtain ⟨delta, hd1, hd2⟩ := key (badL theta v) (hL theta v)
  let q := if c.copies = [] then k0 else k0 + (2 + (parts - 1))
  let script : Nat → F := fun k => if k = q then theta else if k = q + 2 then delta
    else if k = q + 1 then v else if k = k0 + 1 then gamma else v
  let T : PlonkTranscript Nat F H Com := ⟨0, fun _ s => s, fun _ s => s, fun k => (script k, k + 1)⟩
  have hdraw : ∀ k s, (drawN T.challenge k s).2 = s + k := by
    intro k
    induction k with
    | zero => intro s; rfl
    | succ k ih =>
      intro s
      show (drawN T.challenge k (s + 1)).2 = _
      rw [ih]
      omega
  have hstart : ∀ com, lookupStart T c parts com k0 = q := by
    intro com
    unfold lookupStart
    by_cases h : c.copies = []
    · simp only [q, if_pos h]
      rfl
    · simp only [q, if_neg h, hdraw]
      rfl
  have htheta : ∀ com, lookupTheta T c parts com k0 = theta := by
    intro com
    show (T.challenge (lookupStart T c parts com k0)).1 = theta
    rw [hstart]
    show script q = theta
    simp [script]
  refine ⟨T, ?_, fun _ _ => rfl, ?_⟩
  · intro k
    show script k ∉ X
    simp only [script]
    split_ifs <;> assumption
  · intro Pr Data Obj C s0 hs0
    refine ⟨?_, ?_, ?_⟩
    · intro hne vcom _
      have hq : q = k0 + (2 + (parts - 1)) := by simp only [q, if_neg hne]
      show script (s0.1 + 1) ∉ badP (script s0.1)
      rw [hs0]
      have h1 : script k0 = v := by
        simp only [script]
        rw [if_neg (by omega), if_neg (by omega), if_neg (by omega), if_neg (by omega)]
      have h2 : script (k0 + 1) = gamma := by
        simp only [script]
        rw [if_neg (by omega), if_neg (by omega), if_neg (by omega)]
        simp
      rw [h1, h2]
      exact hg1
    · intro _ vcom _
      rw [hs0, htheta]
      exact ht1
    · intro _ vcom _ th hth sorted _ obj lcom _ _ st hst
      rw [hs0] at hth hst
      rw [htheta] at hth
      rw [hstart] at hst
      have hst : st = q + 1 := hst
      have h1 : script (q + 1) = v := by simp [script]
      have h2 : script (q + 1 + 1) = delta := by
        simp only [script]
        rw [if_neg (by omega)]
        simp
      rw [hst, hth]
      show script (q + 1) ≠ -1 ∧ script (q + 1 + 1) ∉ badL theta (script (q + 1))
      rw [h1, h2]
      exact ⟨by simpa using hv1, hd1⟩

end

instance : Fact (Nat.Prime 257) := ⟨by norm_num⟩

/-- roots of unity of `ZMod 257` -/
def exRoots257 : Nat → ZMod 257
  | 0 => 1
  | 1 => -1
  | 2 => 16
  | 3 => 4
  | _ => 2

theorem exLib257_lawful : (FftLib.ofRoots exRoots257).Lawful 4 :=
  FftLib.ofRoots_lawful exRoots257 4 (by decide) rfl (fun _ => rfl) (by decide)

/-- Two witness columns, a public input, a constant column and three selectors; four rows, of which three are
usable. -/
def exPlonkDesc : TableDesc := ⟨2, 1, 1, 3, 3, 4⟩

/-- `2, 4 = 2 ^ 2` and `16 = 4 ^ 2`, which is public; the constant column has the lookup table `2, 4` in the
rows one and two. -/
def exPlonkTable : PlonkTable (ZMod 257) :=
  ⟨[[2, 4, 9, 1], [4, 16, 7, 3]], [[16, 0, 0, 0]], [[0, 2, 4, 0]],
    [[1, 1, 0, 0], [1, 1, 0, 0], [0, 1, 1, 0]]⟩

/-- The first column squared is the second; the second in row zero is the first in row one, and in row one it is
the public input; the first is in the lookup table. -/
def exPlonkCircuit : Circuit (ZMod 257) where
  gates := [⟨0, [.bin .sub (.pow (.term ⟨[⟨0, 0, true, .witness⟩], 1⟩) 2) (.term ⟨[⟨1, 0, true, .witness⟩], 1⟩)]⟩]
  copies := [(⟨1, 0, false, .witness⟩, ⟨0, 1, false, .witness⟩),
    (⟨1, 1, false, .witness⟩, ⟨0, 0, false, .publicInput⟩)]
  lookups := ⟨[⟨1, [⟨1, [.term ⟨[⟨0, 0, true, .witness⟩], 1⟩]⟩]⟩], [⟨1, 2, [[⟨0, 0, true, .constant⟩]]⟩]⟩
  publicInputSizes := [1]

def exPlonkOrder : List PlonkVar :=
  [⟨0, 0, true, .publicInput⟩, ⟨1, 0, true, .witness⟩, ⟨0, 0, true, .witness⟩]

theorem exPlonkSetup : PlaceholderSetup (FftLib.ofRoots exRoots257) 4 2 (2 ^ 64) exPlonkDesc exPlonkCircuit
    exPlonkOrder exPlonkTable where
  lib := exLib257_lawful
  small := by norm_num
  rows := rfl
  usable := by decide
  used := by decide
  width := by decide
  rows32 := by norm_num
  fits := ⟨rfl, rfl, rfl, rfl, by unfold PlonkTable.Rectangular; decide, by decide⟩
  copies := by
    intro c hc v hv
    simp only [exPlonkCircuit, List.mem_cons, List.not_mem_nil, or_false] at hc
    rcases hc with rfl | rfl <;> rcases hv with rfl | rfl <;>
      exact ⟨by simp [TableDesc.HasColumn, exPlonkDesc], by decide, by decide, by decide⟩
  nodup := by decide
  members := by
    intro v
    constructor
    · intro hv
      simp only [exPlonkOrder, List.mem_cons, List.not_mem_nil, or_false] at hv
      rcases hv with rfl | rfl | rfl <;> decide
    · intro hv
      simp [permutedVars, exPlonkCircuit] at hv
      simp [exPlonkOrder]
      tauto
  gates := by
    intro g hg
    simp only [exPlonkCircuit, List.mem_singleton] at hg
    subst hg
    refine ⟨by decide, ?_⟩
    intro c hc v hv
    simp only [List.mem_singleton] at hc
    subst hc
    simp only [Expr.visitVars, List.mem_append, List.mem_singleton] at hv
    rcases hv with rfl | rfl <;> exact ⟨_, rfl, by decide⟩
  lookups := by
    refine ⟨fun g hg => ?_, fun tab htab => ?_⟩
    · simp only [exPlonkCircuit, List.mem_singleton] at hg
      subst hg
      refine ⟨by decide, fun c hc e he v hv => ?_⟩
      simp only [List.mem_singleton] at hc
      subst hc
      simp only [List.mem_singleton] at he
      subst he
      simp only [Expr.visitVars, List.mem_singleton] at hv
      subst hv
      exact ⟨_, rfl, by decide⟩
    · simp only [exPlonkCircuit, List.mem_singleton] at htab
      subst htab
      refine ⟨by decide, fun o ho => ?_⟩
      simp only [List.mem_singleton] at ho
      subst ho
      refine ⟨rfl, fun v hv => ?_⟩
      simp only [List.mem_singleton] at hv
      subst hv
      decide
  degree := by
    have : exPlonkCircuit.maxDegree = 2 := by decide +kernel
    rw [this]
    norm_num
  fuel := le_rfl

theorem exPlonkDegrees : DegreesFit exPlonkCircuit where
  gates := by decide +kernel
  inputs := by decide +kernel
  total := by decide +kernel

theorem exPlonkLimit : LookupsWithinLimit exPlonkCircuit 4 := by
  refine .inr (.inr ?_)
  decide +kernel

theorem exPlonkCopies : CopiesHold exPlonkDesc exPlonkCircuit.copies exPlonkTable.cellAt := by
  intro c hc x y hx hy
  simp only [exPlonkCircuit, List.mem_cons, List.not_mem_nil, or_false] at hc
  rcases hc with rfl | rfl
  all_goals
    simp only [TableDesc.cellOf, TableDesc.globalIndex, Option.map_some, Option.some.injEq] at hx hy
    subst hx hy
    decide +kernel

theorem exPlonkGates : GatesHold exPlonkTable exPlonkCircuit.gates 3 := by
  intro j hj g hg hs c hc
  simp only [exPlonkCircuit, List.mem_singleton] at hg
  subst hg
  simp only [List.mem_singleton] at hc
  subst hc
  interval_cases j
  · decide +kernel
  · decide +kernel
  · exact absurd rfl hs

theorem exPlonkLookups : LookupsSatisfied exPlonkTable exPlonkCircuit.lookups 3 2 where
  wellFormed := by
    refine ⟨?_, by decide, by decide⟩
    intro g hg c hc
    simp only [exPlonkCircuit, List.mem_singleton] at hg
    subst hg
    simp only [List.mem_singleton] at hc
    subst hc
    exact ⟨0, _, rfl, rfl, rfl⟩
  tags := by
    intro j hj
    refine ⟨fun g hg => ?_, fun tab htab => ?_⟩
    · simp only [exPlonkCircuit, List.mem_singleton] at hg
      subst hg
      interval_cases j <;> simp [PlonkTable.selectorAt, exPlonkTable]
    · simp only [exPlonkCircuit, List.mem_singleton] at htab
      subst htab
      interval_cases j <;> simp [PlonkTable.selectorAt, exPlonkTable]
  laidOut := by
    refine ⟨by decide, ?_, ?_⟩
    · intro tab htab
      simp only [exPlonkCircuit, List.mem_singleton] at htab
      subst htab
      simp [PlonkTable.selectorAt, exPlonkTable]
    · have : tableEntries exPlonkTable exPlonkCircuit.lookups 3 = [none, some (1, [2]), some (1, [4])] := by
        simp [tableEntries, exPlonkCircuit, exPlonkTable, PlonkTable.selectorAt, optionRow,
          PlonkTable.constantAt, List.range_succ]
      rw [this]
      intro i j k hij hjk hk
      simp only [List.length_cons, List.length_nil] at hk
      interval_cases k <;> interval_cases j <;> interval_cases i <;> decide
  hold := by
    intro j hj g hg hs c hc
    simp only [exPlonkCircuit, List.mem_singleton] at hg
    subst hg
    simp only [List.mem_singleton] at hc
    subst hc
    refine ⟨0, _, rfl, rfl, _, List.mem_singleton.2 rfl, ?_⟩
    interval_cases j
    · exact ⟨1, by norm_num, by decide +kernel, by decide +kernel⟩
    · exact ⟨2, by norm_num, by decide +kernel, by decide +kernel⟩
    · exact absurd rfl hs
  columns := by decide

/-- FRI on eight points, two rounds, three queries. -/
def exPlonkParams : FriParams (ZMod 257) :=
  FriParams.ofStepList (FftLib.ofRoots exRoots257) 257 [1, 1] 2 3 1 false 0

/-- A transcript for FRI that counts, with the challenge `5`. -/
def exPlonkFri : FriTranscript Nat (ZMod 257) (List (List (ZMod 257))) where
  absorb := fun s _ => s
  intChallenge := fun s => (s + 1, s)
  absorbRoot := fun s _ => s
  challenge := fun s => (s + 1, 5)

theorem exPlonkLpc : LpcParams (FftLib.ofRoots exRoots257) exPlonkParams 4 3 2 where
  adicity := by norm_num
  rounds := by decide
  domains := (C43_params (FftLib.ofRoots exRoots257) 257 [1, 1] 2 3 1 false 0).2.2
  degree := by decide

/-- The first domain of FRI. -/
def exPlonkDomain : Finset (ZMod 257) := Finset.univ.filter fun x => x ^ 8 = 1

theorem exPlonkDomain_mem (k : Nat) : ((FftLib.ofRoots exRoots257).domain 3).elem k ∈ exPlonkDomain := by
  rw [exPlonkDomain, Finset.mem_filter]
  refine ⟨Finset.mem_univ _, ?_⟩
  show ((4 : ZMod 257) ^ k) ^ 8 = 1
  rw [← pow_mul, mul_comm, pow_mul, show (4 : ZMod 257) ^ 8 = 1 from by decide, one_pow]

theorem exPlonkDomain_card : exPlonkDomain.card = 8 := by decide +kernel

/-- The point at which a prover opens is a challenge. -/
theorem openingChallenge_drawn {F S H Com Pr Data Obj : Type} [Field F] [DecidableEq F]
    {C : CommScheme F S Com Pr Data Obj} {T : PlonkTranscript S F H Com} {L : FftLib F} {n : Nat}
    {d : TableDesc} {c : Circuit F} {order : List PlonkVar} {pd : PublicData F H Com Data} {t : PlonkTable F}
    {o0 : Obj} {y : F} (h : openingChallenge C T L n d c order pd t o0 = some y) :
    ∃ st, y = (T.challenge st).1 := by
  unfold openingChallenge at h
  obtain ⟨proof, hp, hy⟩ := Option.map_eq_some_iff.1 h
  clear h
  rename' hp => h
  unfold placeholderProve at h
  obtain ⟨o1, -, h⟩ := Option.bind_eq_some_iff.1 h
  obtain ⟨vc, -, h⟩ := Option.bind_eq_some_iff.1 h
  obtain ⟨⟨fp, o2, st1⟩, -, h⟩ := Option.bind_eq_some_iff.1 h
  obtain ⟨⟨fl, lcom, o3, st2⟩, -, h⟩ := Option.bind_eq_some_iff.1 h
  obtain ⟨⟨pcom, o4, st3⟩, -, h⟩ := Option.bind_eq_some_iff.1 h
  obtain ⟨⟨fg, st4⟩, -, h⟩ := Option.bind_eq_some_iff.1 h
  obtain ⟨chunks, -, h⟩ := Option.bind_eq_some_iff.1 h
  obtain ⟨o5, -, h⟩ := Option.bind_eq_some_iff.1 h
  obtain ⟨qcom, -, h⟩ := Option.bind_eq_some_iff.1 h
  obtain ⟨pts, -, h⟩ := Option.bind_eq_some_iff.1 h
  obtain ⟨o6, -, h⟩ := Option.bind_eq_some_iff.1 h
  obtain ⟨⟨ev, st6⟩, -, h⟩ := Option.bind_eq_some_iff.1 h
  rw [Option.some_inj] at h
  subst h
  exact ⟨_, hy.symm⟩

/-- The public input `16` is the one of the table. -/
theorem exPlonkPublic : PublicInputOf exPlonkDesc exPlonkCircuit 2 exPlonkTable [[16]] where
  sizes := .inr rfl
  fits := by
    intro i xs h
    obtain rfl : i = 0 := by
      have := (List.getElem?_eq_some_iff.1 h).1
      simpa using this
    simp only [List.getElem?_cons_zero, Option.some.injEq] at h
    subst h
    decide
  given := by
    intro i xs h
    obtain rfl : i = 0 := by
      have := (List.getElem?_eq_some_iff.1 h).1
      simpa using this
    simp only [List.getElem?_cons_zero, Option.some.injEq] at h
    subst h
    refine ⟨[16, 0, 0, 0], 0, rfl, ⟨.inl rfl, le_rfl, ?_⟩, by decide +kernel⟩
    rintro r ⟨v, hv, hi, rfl⟩
    revert hi
    revert v
    decide +kernel

/-- **C65**, a run from the preprocessing to the verdict: with LPC, Merkle trees whose root is the list of
their leaves, and some transcript. All hypotheses of `C65_complete` and `C65_lpc_complete` are met, and so
are those of `C37_honest_accepted`, `C38_honest_accepted` and `C61_same_points`. -/
theorem C65_example : ∃ (T : PlonkTranscript Nat (ZMod 257) Unit (List (List (ZMod 257))))
    (C : CommScheme (ZMod 257) Nat _ (FriProof (ZMod 257) _ _) _ _), C = lpcComm (FftLib.ofRoots exRoots257)
      (listMerkle (ZMod 257)) exPlonkFri exPlonkParams true 1 0 ∧
    ∃ pd o0 proof,
      placeholderPreprocess C T (FftLib.ofRoots exRoots257) 2 (2 ^ 64) exPlonkDesc exPlonkCircuit
        exPlonkOrder 3 4 () exPlonkTable LpcScheme.new = some (pd, o0) ∧
      placeholderProve C T (FftLib.ofRoots exRoots257) 2 exPlonkDesc exPlonkCircuit exPlonkOrder pd
        exPlonkTable o0 = some proof ∧
      placeholderVerifyPublic C T (FftLib.ofRoots exRoots257) 2 true exPlonkDesc exPlonkCircuit pd.common
        proof o0 [[16]] = some true := by
  obtain ⟨parts, badP, badT, badL, b1, b2, b3, h⟩ := C65_lpc_complete (mqc := 4) exPlonkSetup
    (by decide +kernel) (by decide +kernel) exPlonkDegrees exPlonkLimit exPlonkCopies exPlonkGates 2
    (fun _ => exPlonkLookups) 3
  have hc : Fintype.card (ZMod 257) = 257 := ZMod.card 257
  obtain ⟨T, t1, t2, t3⟩ := C65_challenges_exist 2 exPlonkCircuit exPlonkTable 3 parts badP badT badL
    exPlonkDomain
    (fun b => by
      have h1 : (badP b).card ≤ 12 := b1 b
      rw [exPlonkDomain_card, hc]; omega)
    (by
      have h1 : badT.card ≤ 24 := b2
      rw [exPlonkDomain_card, hc]; omega)
    (fun th b => by
      have h1 : (badL th b).card ≤ 6 := b3 th b
      rw [exPlonkDomain_card, hc]; omega)
    (by rw [exPlonkDomain_card, hc]; norm_num) 1 Unit (List (List (ZMod 257)))
  have hout : ∀ x, x ∉ exPlonkDomain → ∀ k, ((FftLib.ofRoots exRoots257).domain 3).elem k ≠ x := by
    rintro x hx k rfl
    exact hx (exPlonkDomain_mem k)
  obtain ⟨pd, o0, hpre, h⟩ := h (listMerkle (ZMod 257)) exPlonkFri T () exPlonkParams 3 2 true 1 0
    listMerkle_lawful exPlonkLpc (by decide) (by decide +kernel) hc (by decide) (fun _ => show (5 : ZMod 257) ≠ 0 by decide)
    (by intro h; exact absurd h (by decide))
  obtain ⟨y, hy, h⟩ := h (hout _ (show (5 : ZMod 257) ∉ exPlonkDomain by decide +kernel)) (t3 _ _ (by rw [t2]; rfl))
  obtain ⟨st, rfl⟩ := openingChallenge_drawn hy
  obtain ⟨proof, hp, hv⟩ := h (hout _ (t1 st))
  exact ⟨T, _, rfl, pd, o0, proof, hpre, hp, (hv true).2 _ exPlonkPublic⟩

end Crypto3Zk
