import Verif.Props.FRISound
import Verif.Props.LPC

/-!
# C67, C44: a false claim is exposed by some query
-/

namespace Crypto3Zk

set_option linter.unusedSectionVars false

open Polynomial

variable {F : Type} [Field F] {Tree Root Path S : Type} {L : FftLib F} {A : Nat}

/-- The values of the combined quotient are those of a polynomial over the domain. -/
theorem quotient_interpolant (hL : L.Lawful A) (n : Nat) (hn : n ≤ A) (f : F → F) :
    ∃ c : List F, c.length ≤ 2 ^ n ∧ ∀ x, evalPoly c ((L.domain n).elem x) = f ((L.domain n).elem x) := by
  obtain ⟨c, hc, hv⟩ := evals_surjective hL n hn ((List.range (2 ^ n)).map fun x => f ((L.domain n).elem x))
    (by simp)
  refine ⟨c, hc.le, fun x => ?_⟩
  have hlt : x % 2 ^ n < 2 ^ n := Nat.mod_lt _ (Nat.pow_pos (by norm_num))
  rw [← elem_mod hL n hn x]
  have := congrArg (·[x % 2 ^ n]?) hv
  simpa [FriDomain.evals, hlt, FftLib.domain] using this

/-- **C67** (openings): let the commitments be to the batches `P`, of polynomials of at most twice the
allowed length, and let one of the claimed evaluations be false. Apart from at most as many challenges
`theta` as there are claims at its point, and apart from one challenge in every round, some point of the
domain exposes the claim: whatever polynomials the roots of the rounds commit to and whatever the
final polynomial is, no accepted proof, whose paths stand at their places, has a query there. -/
theorem C67_false_claim [Fintype F] [DecidableEq F] [DecidableEq Root] (hL : L.Lawful A)
    (M : MerkleLib F Tree Root Path) (pos : Path → Nat) (hb : M.Binding pos)
    (T : FriTranscript S F Root) (prm : FriParams F) (n d : Nat)
    (hA : n ≤ A) (hr : prm.r ≤ n) (hD : ∀ t < prm.r, prm.D[t]? = some (L.domain (n - t)))
    (hd : prm.maxDegree + 1 = 2 ^ d) (commitments : OMap Root)
    (s0 : Nat) (hs0 : prm.stepList[0]? = some s0)
    (P : OMap (List (List F))) (hP : FriCommitted L M n s0 commitments P)
    (claims : List (F × List ((Nat × Nat) × F))) (hc : ClaimsOf P (2 ^ (d + 1)) claims)
    (hout : ∀ e ∈ claims, ∀ x, (L.domain n).elem x ≠ e.1)
    (hroom : 2 ^ (d + 1) + claims.length ≤ 2 ^ n)
    (e : F × List ((Nat × Nat) × F)) (he : e ∈ claims) (t : (Nat × Nat) × F) (ht : t ∈ e.2)
    (hfalse : ¬ trueClaim P e.1 t) :
    ∃ badTheta : Finset F, badTheta.card ≤ e.2.length ∧ ∀ theta ∉ badTheta,
      ∃ cQ : List F, ∀ (roots : List Root) (os : List (List F)) (st st1 : S) (alphas final : List F),
        FriOracles L M n prm.stepList 0 roots os →
        friAlphas T prm.stepList roots st = some (st1, alphas) →
        (∀ k a, alphas[k]? = some a → a ∉ friBad (foldAll (alphas.take k) cQ) (2 ^ (d - k))) →
        ∃ x < 2 ^ n, ∀ (proof : FriProof F Root Path) (st' : S), proof.friRoots = roots →
          proof.finalPolynomial = final →
          (∀ i q x, proof.queryProofs[i]? = some q → x < 2 ^ n →
            FriQueryPoint T L prm proof n st i x → FriPlaced pos n s0 prm.stepList q x) →
          friVerify M T prm proof commitments theta (lpcItems theta 1 claims) st = some (true, st') →
          ∀ i < prm.lambda, ¬ FriQueryPoint T L prm proof n st i x := by
  classical
  let Y := (Finset.range (2 ^ n)).image fun j => (L.domain n).elem j
  have hcard : Y.card = 2 ^ n := by
    rw [Finset.card_image_of_injOn, Finset.card_range]
    intro a ha b hb hab
    simp only [Finset.coe_range, Set.mem_Iio] at ha hb
    exact elem_injective hL n hA a b ha hb hab
  refine ⟨Finset.univ.filter fun theta => ∃ q : List F, q.length ≤ 2 ^ (d + 1) ∧
      ∀ y ∈ Y, evalPoly q y = quotientValue P theta y (lpcItems theta 1 claims) 1, ?_, ?_⟩
  · refine C44_false_claim P (2 ^ (d + 1)) (Nat.pow_pos (by norm_num)) claims hc Y ?_ (by omega) e he t ht
      hfalse _ ?_
    · intro e' he' hmem
      obtain ⟨j, _, hj⟩ := Finset.mem_image.mp hmem
      exact hout e' he' j hj
    · intro theta h
      exact (Finset.mem_filter.mp h).2
  · intro theta hth
    obtain ⟨cQ, hlen, hcQ⟩ := quotient_interpolant hL n hA
      (fun y => quotientValue P theta y (lpcItems theta 1 claims) 1)
    refine ⟨cQ, fun roots os st st1 alphas final ho hal hgood => ?_⟩
    refine C67_exposed hL M pos hb T prm n d hA hr hD hd commitments s0 hs0 P hP roots os ho theta _ cQ
      hlen hcQ ?_ st st1 alphas hal hgood final
    by_contra hno
    push Not at hno
    apply hth
    rw [Finset.mem_filter]
    refine ⟨Finset.mem_univ _, cQ.take (2 ^ (d + 1)), by rw [List.length_take]; omega, ?_⟩
    intro y hy
    obtain ⟨j, _, rfl⟩ := Finset.mem_image.mp hy
    rw [← hcQ j, ← eval_toPoly, ← eval_toPoly, toPoly_take_of_zero]
    intro i hi
    exact hno i (by rw [hd, ← pow_succ']; exact hi)

/-! ## a concrete case -/

theorem listMerkle_binding [DecidableEq F] : (listMerkle F).Binding Prod.snd := by
  intro k leaves path leaf _ hr hv
  simp only [listMerkle, id, decide_eq_true_eq] at hr hv
  rw [← hr]
  exact hv

/-- `3 + 5 X + X²` committed on sixteen points, two rounds, three queries; every nonzero element is in the
domain, and the polynomial is opened at zero -/
def exSoundParams : FriParams (ZMod 17) :=
  FriParams.ofStepList (FftLib.ofRoots exRoots17) 17 [1, 1] 2 3 2 false 0

def exSoundTree : List (List (ZMod 17)) :=
  (friPrecommitBatch (FftLib.ofRoots exRoots17) (listMerkle (ZMod 17)) [.coeff [3, 5, 1]]
    ((FftLib.ofRoots exRoots17).domain 4) 1).getD []

/-- the tree over the quotient `5 + X` -/
def exSoundQTree : List (List (ZMod 17)) :=
  ((friPrecommit (FftLib.ofRoots exRoots17) (listMerkle (ZMod 17)) (.coeff [5, 1])
    ((FftLib.ofRoots exRoots17).domain 4) 1).map Prod.fst).getD []

/-- the honest proof -/
def exSoundProof : FriProof (ZMod 17) (List (List (ZMod 17))) (List (List (ZMod 17)) × Nat) :=
  ((friProve (FftLib.ofRoots exRoots17) (listMerkle (ZMod 17)) exFriTranscript exSoundParams
    [(0, [.coeff [3, 5, 1]])] (.coeff [5, 1]) [(0, exSoundTree)] exSoundQTree 0 0 0).map Prod.fst).getD
    ⟨[], [], [], 0⟩

theorem exSound_domains : ∀ t < exSoundParams.r,
    exSoundParams.D[t]? = some ((FftLib.ofRoots exRoots17).domain (4 - t)) :=
  (C43_params (FftLib.ofRoots exRoots17) 17 [1, 1] 2 3 2 false 0).2.2

theorem exSound_committed : FriCommitted (FftLib.ofRoots exRoots17) (listMerkle (ZMod 17)) 4 1
    [(0, exSoundTree)] [(0, [[3, 5, 1]])] := by
  intro k root h
  by_cases hk : 0 = k
  · subst hk
    simp only [OMap.find, if_true, Option.some.injEq] at h
    subst h
    exact ⟨[[3, 5, 1]], exSoundTree, rfl, by decide +kernel, rfl⟩
  · simp [OMap.find, hk] at h

theorem exSound_oracles : FriOracles (FftLib.ofRoots exRoots17) (listMerkle (ZMod 17)) 4 [1, 1] 0
    exSoundProof.friRoots [[5, 1], [14]] :=
  ⟨exSoundProof.friRoots.headD [], [5, 1], exSoundProof.friRoots.headD [], by decide +kernel, rfl,
    by decide, by decide +kernel, rfl, exSoundProof.friRoots.tail.headD [], [14],
    exSoundProof.friRoots.tail.headD [], by decide +kernel, rfl, by decide, by decide +kernel, rfl, rfl⟩

/-- the places of all paths of the proof, checked against all points -/
def exSoundPlaced : Bool :=
  (List.range 3).all fun i => (List.range 16).all fun x =>
    match exSoundProof.queryProofs[i]? with
    | none => true
    | some q =>
      !decide (((FftLib.ofRoots exRoots17).domain 4).elem x =
        ((friChallenges exFriTranscript 3 ((friAlphas exFriTranscript [1, 1] exSoundProof.friRoots
          0).map Prod.fst |>.getD 0)).2.getD i 0) ^ ((17 - 1) / 2 ^ 4)) ||
      (q.initialProof.all (fun ip => ip.2.p.2 == x % 2 ^ (4 - 1)) &&
        (List.range q.roundProofs.length).all fun j =>
          match q.roundProofs[j]? with
          | none => true
          | some rp => rp.p.2 == x % 2 ^ (4 - ([1, 1].take (j + 1)).sum))

theorem exSound_placed : ∀ i q x, exSoundProof.queryProofs[i]? = some q → x < 2 ^ 4 →
    FriQueryPoint exFriTranscript (FftLib.ofRoots exRoots17) exSoundParams exSoundProof 4 0 i x →
    FriPlaced Prod.snd 4 1 exSoundParams.stepList q x := by
  intro i q x hq hx hpt
  have hall : exSoundPlaced = true := by decide +kernel
  obtain ⟨st1, alphas, st2, ch, h1, h2, h3, h4⟩ := hpt
  have h2' : st2 = st1 := h2
  subst h2'
  have h1' : friAlphas exFriTranscript [1, 1] exSoundProof.friRoots 0 = some (st2, alphas) := h1
  have h3' : (friChallenges exFriTranscript 3 st2).2[i]? = some ch := h3
  have hi : i < 3 := by
    have := (List.getElem?_eq_some_iff.mp h3').1
    rwa [length_friChallenges] at this
  unfold exSoundPlaced at hall
  rw [List.all_eq_true] at hall
  have := hall i (List.mem_range.mpr hi)
  rw [List.all_eq_true] at this
  have := this x (List.mem_range.mpr hx)
  rw [hq] at this
  simp only [h1', Option.map_some, Option.getD_some, List.getD_eq_getElem?_getD, h3'] at this
  have h4' : ((FftLib.ofRoots exRoots17).domain 4).elem x = ch ^ ((17 - 1) / 2 ^ 4) := h4
  rw [decide_eq_true h4', Bool.not_true, Bool.false_or, Bool.and_eq_true, List.all_eq_true,
    List.all_eq_true] at this
  refine ⟨fun ip hip => by simpa using this.1 ip hip, fun j rp hj => ?_⟩
  have hjl := (List.getElem?_eq_some_iff.mp hj).1
  have h5 := this.2 j (List.mem_range.mpr hjl)
  rw [hj] at h5
  exact beq_iff_eq.mp h5

/-- The run: the honest proof of the true claim is accepted, and all hypotheses of `C67_consistent` and
`C67_accepted_shows` are met. -/
example : ∃ st1 alphas, friAlphas exFriTranscript [1, 1] exSoundProof.friRoots 0 = some (st1, alphas) ∧
    ∀ i < 3, ∃ x < 2 ^ 4,
      FriQueryPoint exFriTranscript (FftLib.ofRoots exRoots17) exSoundParams exSoundProof 4 0 i x ∧
      (∀ j, j % 2 ^ (4 - 1) = x % 2 ^ (4 - 1) →
        evalPoly [5, 1] (((FftLib.ofRoots exRoots17).domain 4).elem j) =
          quotientValue [(0, [[3, 5, 1]])] 1 (((FftLib.ofRoots exRoots17).domain 4).elem j)
            [([(0, 0)], 3, [0, 1])] 1) ∧
      FriFolds (FftLib.ofRoots exRoots17) 4 exSoundProof.finalPolynomial x [1, 1] 0 alphas
        [[5, 1], [14]] := by
  obtain ⟨v, hv, ht⟩ : ∃ v, friVerify (listMerkle (ZMod 17)) exFriTranscript exSoundParams exSoundProof
      [(0, exSoundTree)] 1 [([(0, 0)], 3, [0, 1])] 0 = some v ∧ v.1 = true := by
    have h : ((friVerify (listMerkle (ZMod 17)) exFriTranscript exSoundParams exSoundProof
      [(0, exSoundTree)] 1 [([(0, 0)], 3, [0, 1])] 0).map Prod.fst) = some true := by decide +kernel
    simpa using h
  obtain ⟨b, st'⟩ := v
  simp only at ht
  subst ht
  exact C67_consistent exLib17_lawful (listMerkle (ZMod 17)) Prod.snd listMerkle_binding exFriTranscript
    exSoundParams 4 2 (by norm_num) (by decide) exSound_domains rfl exSoundProof [(0, exSoundTree)] 1 rfl
    [(0, [[3, 5, 1]])] exSound_committed [[5, 1], [14]] exSound_oracles 1 _ 0 st' exSound_placed hv

theorem exSound_false : ¬ trueClaim [(0, [[3, 5, 1]])] (0 : ZMod 17) ((0, 0), 4) := by
  rintro ⟨c, h1, h2⟩
  have : batchPoly [(0, [([3, 5, 1] : List (ZMod 17))])] ((0, 0) : Nat × Nat) = some [3, 5, 1] := rfl
  rw [this, Option.some.injEq] at h1
  subst h1
  revert h2
  decide

/-- The claim that the committed polynomial has the value `4` at zero is false, and all hypotheses of
`C67_false_claim` are met: apart from one `theta` and one challenge per round, it is exposed. -/
example : ∃ badTheta : Finset (ZMod 17), badTheta.card ≤ 1 ∧ ∀ theta ∉ badTheta,
    ∃ cQ : List (ZMod 17), ∀ roots os (st st1 : Nat) alphas final,
      FriOracles (FftLib.ofRoots exRoots17) (listMerkle (ZMod 17)) 4 [1, 1] 0 roots os →
      friAlphas exFriTranscript [1, 1] roots st = some (st1, alphas) →
      (∀ k a, alphas[k]? = some a → a ∉ friBad (foldAll (alphas.take k) cQ) (2 ^ (2 - k))) →
      ∃ x < 2 ^ 4, ∀ (proof : FriProof (ZMod 17) (List (List (ZMod 17))) (List (List (ZMod 17)) × Nat))
        (st' : Nat), proof.friRoots = roots → proof.finalPolynomial = final →
        (∀ i q x, proof.queryProofs[i]? = some q → x < 2 ^ 4 →
          FriQueryPoint exFriTranscript (FftLib.ofRoots exRoots17) exSoundParams proof 4 st i x →
          FriPlaced Prod.snd 4 1 [1, 1] q x) →
        friVerify (listMerkle (ZMod 17)) exFriTranscript exSoundParams proof [(0, exSoundTree)] theta
          (lpcItems theta 1 [(0, [((0, 0), 4)])]) st = some (true, st') →
        ∀ i < 3, ¬ FriQueryPoint exFriTranscript (FftLib.ofRoots exRoots17) exSoundParams proof 4 st i
          x :=
  C67_false_claim exLib17_lawful (listMerkle (ZMod 17)) Prod.snd listMerkle_binding exFriTranscript
    exSoundParams 4 2 (by norm_num) (by decide) exSound_domains rfl [(0, exSoundTree)] 1 rfl
    [(0, [[3, 5, 1]])] exSound_committed [(0, [((0, 0), 4)])]
    ⟨by simp, by
      intro e he t ht
      simp only [List.mem_singleton] at he
      subst he
      simp only [List.mem_singleton] at ht
      subst ht
      exact ⟨[3, 5, 1], rfl, by decide⟩⟩
    (by
      intro e he x
      simp only [List.mem_singleton] at he
      subst he
      exact elem_ne_zero exLib17_lawful 4 (by norm_num) x)
    (by decide) (0, [((0, 0), 4)]) (by simp) ((0, 0), 4) (by simp) exSound_false

end Crypto3Zk
