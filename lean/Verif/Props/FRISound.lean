import Verif.Lemmas.FRISound
import Verif.Props.FRI
import Verif.Lemmas.FRIProof
import Verif.Lemmas.FftExample
import Mathlib.LinearAlgebra.Lagrange

/-!
# C67: what an accepted FRI proof shows
-/

namespace Crypto3Zk

set_option linter.unusedSectionVars false

open Polynomial

variable {F : Type} [Field F] {Tree Root Path S : Type} {L : FftLib F} {A : Nat}

/-- **C67**: whatever proof the verifier accepts, the step list is valid, the final polynomial is not
empty and within the tested degree, the proof of work is right if it is asked for, and for each of the
`lambda` query challenges, drawn after everything else, there is a query proof that is consistent at
the point the challenge selects: its paths have the committed roots and show the values of some
polynomials on the coset of the point, the first round's values are those of the combined quotient of
the openings, and each round's values, folded with the challenges drawn after its root, are met by the
next round, and at the end by the final polynomial. -/
theorem C67_accepted_shows [DecidableEq F] [DecidableEq Root] (hL : L.Lawful A)
    (M : MerkleLib F Tree Root Path) (T : FriTranscript S F Root) (prm : FriParams F) (n d : Nat)
    (hA : n ≤ A) (hr : prm.r ≤ n) (hD : ∀ t < prm.r, prm.D[t]? = some (L.domain (n - t)))
    (hd : prm.maxDegree + 1 = 2 ^ d) (proof : FriProof F Root Path) (commitments : OMap Root)
    (theta : F) (items : List (List (Nat × Nat) × F × List F)) (st st' : S)
    (h : friVerify M T prm proof commitments theta items st = some (true, st')) :
    ((∀ s ∈ prm.stepList, 1 ≤ s ∧ s ≤ 10) ∧ prm.stepList.sum = prm.r ∧
      prm.stepList.getLast? = some 1) ∧
    (prm.r ≤ d + 1 ∧ proof.finalPolynomial ≠ [] ∧
      proof.finalPolynomial.length ≤ 2 ^ (d + 1 - prm.r)) ∧
    ∃ s0 st1 alphas st2, prm.stepList[0]? = some s0 ∧
      friAlphas T prm.stepList proof.friRoots st = some (st1, alphas) ∧
      (if prm.useGrinding then
        powVerify T.toIntTranscript prm.grindingParameter st1 proof.proofOfWork = (true, st2)
      else st2 = st1) ∧
      st' = (friChallenges T prm.lambda st2).1 ∧
      ∀ (i : Nat) (ch : F), (friChallenges T prm.lambda st2).2[i]? = some ch →
        ∃ q, proof.queryProofs[i]? = some q ∧ ∃ x < 2 ^ n,
          (L.domain n).elem x = ch ^ ((prm.modulus - 1) / 2 ^ n) ∧
          FriQueryShows L M n s0 prm.stepList commitments theta items alphas proof.friRoots
            proof.finalPolynomial q x := by
  unfold friVerify at h
  by_cases hchk : checkStepList prm.stepList prm.r = true
  swap
  · rw [if_neg hchk] at h; simp at h
  rw [if_pos hchk] at h
  have hsl := (checkStepList_iff _ _).mp hchk
  by_cases hdeg : friDegreeOk prm proof.finalPolynomial = true
  swap
  · rw [if_neg hdeg] at h; simp at h
  rw [if_pos hdeg] at h
  simp only [Option.bind_eq_bind, Option.bind_eq_some_iff] at h
  obtain ⟨⟨st1, alphas⟩, hal, h⟩ := h
  have hrd : prm.r ≤ d + 1 := by
    by_contra hlt
    unfold friDegreeOk at hdeg
    simp only [hd, Nat.log2_two_pow, if_pos (show d + 1 < prm.r by omega)] at hdeg
    simp at hdeg
  obtain ⟨s0, rest, hsteps⟩ : ∃ s0 rest, prm.stepList = s0 :: rest := by
    cases hs : prm.stepList with
    | nil => rw [hs] at hsl; simp at hsl
    | cons s0 rest => exact ⟨s0, rest, rfl⟩
  refine ⟨hsl, ⟨hrd, (C43_degree_test prm d hd hrd _).mp hdeg⟩, s0, st1, alphas, ?_⟩
  have hlen := length_friAlphas T _ _ _ _ _ hal
  rw [hsl.2.1] at hlen
  have hq := fun st2 => friVerifyQueries_shows hL M T prm n hA hr hD s0 rest hsteps
    (fun s hs => (hsl.1 s (hsteps ▸ hs)).1) (hsteps ▸ hsl.2.1) commitments theta items alphas hlen
    proof.friRoots proof.finalPolynomial prm.lambda proof.queryProofs st2 st'
  cases hg : prm.useGrinding with
  | false =>
    simp only [hg, Bool.false_eq_true, if_false, if_true] at h ⊢
    exact ⟨st1, by rw [hsteps]; rfl, hal, rfl, hq st1 h⟩
  | true =>
    simp only [hg, if_true] at h ⊢
    cases hp : powVerify T.toIntTranscript prm.grindingParameter st1 proof.proofOfWork with
    | mk ok st2 =>
    rw [hp] at h
    cases ok with
    | false => simp at h
    | true =>
      simp only [if_true] at h
      exact ⟨st2, by rw [hsteps]; rfl, hal, rfl, hq st2 h⟩

/-! ## with trees that bind -/

theorem length_leafVals (n s : Nat) (c : List F) (x : Nat) :
    (leafVals L n s c x).length = 2 ^ s * 2 := by
  simp [leafVals, List.length_flatten, Function.comp_def]

theorem flatten_inj {α : Type} (k : Nat) (hk : 0 < k) : ∀ (l l' : List (List α)),
    (∀ a ∈ l, a.length = k) → (∀ a ∈ l', a.length = k) → l.flatten = l'.flatten → l = l'
  | [], [], _, _, _ => rfl
  | [], a :: l', _, h', h => by
    have h1 := congrArg List.length h
    have h2 := h' a (by simp)
    simp only [List.flatten_cons, List.length_append, List.flatten_nil, List.length_nil] at h1
    omega
  | a :: l, [], h', _, h => by
    have h1 := congrArg List.length h
    have h2 := h' a (by simp)
    simp only [List.flatten_cons, List.length_append, List.flatten_nil, List.length_nil] at h1
    omega
  | a :: l, b :: l', h1, h2, h => by
    rw [List.flatten_cons, List.flatten_cons] at h
    obtain ⟨rfl, h3⟩ := List.append_inj h ((h1 a (by simp)).trans (h2 b (by simp)).symm)
    rw [flatten_inj k hk l l' (fun a ha => h1 a (by simp [ha])) (fun a ha => h2 a (by simp [ha])) h3]

/-- Equal leaves are equal values on the coset. -/
theorem leafVals_inj (hL : L.Lawful A) (n s : Nat) (hn : n < A) (hs : s ≤ n) (c c' : List F) (x : Nat)
    (h : leafVals L n s c (x % 2 ^ (n - s)) = leafVals L n s c' (x % 2 ^ (n - s))) (i : Nat)
    (hi : i % 2 ^ (n - s) = x % 2 ^ (n - s)) :
    evalPoly c ((L.domain (n + 1)).elem i) = evalPoly c' ((L.domain (n + 1)).elem i) := by
  set x0 := x % 2 ^ (n - s) with hx0
  have hp : 2 ^ (n + 1) = 2 * 2 ^ n := by rw [pow_succ, mul_comm]
  have hlt : x0 < 2 ^ (n - s) := Nat.mod_lt _ (Nat.pow_pos (by norm_num))
  have hle : 2 ^ (n - s) ≤ 2 ^ n := Nat.pow_le_pow_right (by norm_num) (by omega)
  have hlist := flatten_inj 2 (by norm_num) _ _ (by simp) (by simp) h
  have hpair : ∀ j < 2 ^ s,
      evalPoly c ((L.domain (n + 1)).elem (cosetIdx (2 ^ (n + 1)) x0 j)) =
        evalPoly c' ((L.domain (n + 1)).elem (cosetIdx (2 ^ (n + 1)) x0 j)) ∧
      evalPoly c ((L.domain (n + 1)).elem (cosetIdx (2 ^ (n + 1)) x0 j + 2 ^ n)) =
        evalPoly c' ((L.domain (n + 1)).elem (cosetIdx (2 ^ (n + 1)) x0 j + 2 ^ n)) := by
    intro j hj
    have := congrArg (·[j]?) hlist
    simp only [List.getElem?_map, List.getElem?_range hj, Option.map_some, Option.some.injEq,
      List.cons.injEq, and_true] at this
    exact this
  rw [← elem_mod hL (n + 1) (by omega) i]
  have hi' : i % 2 ^ (n + 1) % 2 ^ (n - s) = x0 % 2 ^ (n - s) := by
    rw [Nat.mod_mod_of_dvd _ (Nat.pow_dvd_pow 2 (by omega)), hi, Nat.mod_eq_of_lt hlt]
  have hilt : i % 2 ^ (n + 1) < 2 ^ (n + 1) := Nat.mod_lt _ (Nat.pow_pos (by norm_num))
  generalize i % 2 ^ (n + 1) = i at hi' hilt
  obtain ⟨j, hj, hor⟩ := cosetIdx_cover n s x0 i hs (by omega) hilt hi'
  have hc := cosetIdx_folded n s x0 j hs hlt hj
  rcases hor with h1 | h1
  · rw [← h1]; exact (hpair j hj).1
  · rw [pairedIndex_pow n _ (by omega), if_pos hc] at h1
    rw [← h1]; exact (hpair j hj).2

/-- What a path at its place shows is what was committed to. -/
theorem friShows_bound (hL : L.Lawful A) (M : MerkleLib F Tree Root Path) (pos : Path → Nat)
    (hb : M.Binding pos) (n s : Nat) (hn : n ≤ A) (hs1 : 1 ≤ s) (hs : s ≤ n) (cs os : List (List F))
    (x : Nat) (root : Root) (path : Path) (leaves : List (List F))
    (hleaves : friLeaves (os.map (L.domain n).evals) (2 ^ n) s = some leaves)
    (hroot : root = M.root (M.build leaves)) (hpos : pos path = x % 2 ^ (n - s))
    (h : FriShows L M n s cs x root path) :
    List.Forall₂ (fun c o => ∀ i, i % 2 ^ (n - s) = x % 2 ^ (n - s) →
      evalPoly c ((L.domain n).elem i) = evalPoly o ((L.domain n).elem i)) cs os := by
  obtain ⟨n, rfl⟩ : ∃ m, n = m + 1 := ⟨n - 1, by omega⟩
  obtain ⟨s, rfl⟩ : ∃ m, s = m + 1 := ⟨s - 1, by omega⟩
  rw [show n + 1 - (s + 1) = n - s by omega] at *
  have hlt : x % 2 ^ (n - s) < 2 ^ (n - s) := Nat.mod_lt _ (Nat.pow_pos (by norm_num))
  rw [friShows_leaf M n s (by omega)] at h
  rw [friLeaves_eq n s (by omega), Option.some.injEq] at hleaves
  subst hleaves
  have hleaf := hb (n - s) _ path _ (by simp) (h.1.trans hroot) h.2
  rw [hpos, List.getElem?_map, List.getElem?_range hlt, Option.map_some, Option.some.injEq] at hleaf
  have hlist := flatten_inj (2 ^ s * 2) (by positivity) _ _
    (by intro a ha; obtain ⟨c, _, rfl⟩ := List.mem_map.mp ha; exact length_leafVals _ _ _ _)
    (by intro a ha; obtain ⟨c, _, rfl⟩ := List.mem_map.mp ha; exact length_leafVals _ _ _ _) hleaf
  clear h hleaf hroot
  induction cs generalizing os with
  | nil =>
    cases os with
    | nil => exact .nil
    | cons o os => simp at hlist
  | cons c cs ih =>
    cases os with
    | nil => simp at hlist
    | cons o os =>
      simp only [List.map_cons, List.cons.injEq] at hlist
      exact .cons (leafVals_inj hL n s (by omega) (by omega) c o x hlist.1.symm)
        (ih os hlist.2)

/-- Polynomials that agree on a coset fold to the same value. -/
theorem foldAll_coset (hL : L.Lawful A) : ∀ (as : List F) (m x : Nat) (c o : List F), m ≤ A →
    as.length ≤ m →
    (∀ i, i % 2 ^ (m - as.length) = x % 2 ^ (m - as.length) →
      evalPoly c ((L.domain m).elem i) = evalPoly o ((L.domain m).elem i)) →
    evalPoly (foldAll as c) ((L.domain (m - as.length)).elem x) =
      evalPoly (foldAll as o) ((L.domain (m - as.length)).elem x)
  | [], m, x, c, o, _, _, h => h x rfl
  | a :: as, m, x, c, o, hm, hl, h => by
    simp only [List.length_cons] at hl h ⊢
    obtain ⟨m, rfl⟩ : ∃ k, m = k + 1 := ⟨m - 1, by omega⟩
    rw [show m + 1 - (as.length + 1) = m - as.length by omega] at h ⊢
    refine foldAll_coset hL as m x (foldList a c) (foldList a o) (by omega) (by omega) fun i hi => ?_
    rw [← elem_sq hL m (by omega) i, foldList_eval_div hL.two_ne _ _ _ (elem_ne_zero hL _ hm _),
      foldList_eval_div hL.two_ne _ _ _ (elem_ne_zero hL _ hm _)]
    unfold foldedValue
    rw [← elem_add_half hL m (by omega), h i hi, h (i + 2 ^ m)]
    rw [← hi, Nat.add_mod, Nat.mod_eq_zero_of_dvd (Nat.pow_dvd_pow 2 (show m - as.length ≤ m by omega)),
      add_zero, Nat.mod_mod]

theorem thetaSum_congr (P P' : OMap (List (List F))) (theta p : F) :
    ∀ (ids : List (Nat × Nat)) (acc : F), (∀ id ∈ ids, ∃ c c', batchPoly P id = some c ∧
      batchPoly P' id = some c' ∧ evalPoly c p = evalPoly c' p) →
    thetaSum P theta p ids acc = thetaSum P' theta p ids acc
  | [], _, _ => rfl
  | id :: ids, acc, h => by
    obtain ⟨c, c', h1, h2, h3⟩ := h id (by simp)
    rw [thetaSum, thetaSum, h1, h2, thetaSum_congr P P' theta p ids _ fun id hid => h id (by simp [hid])]
    simp [h3]

theorem quotientValue_congr (P P' : OMap (List (List F))) (theta p : F) :
    ∀ (items : List (List (Nat × Nat) × F × List F)) (acc : F),
    (∀ it ∈ items, ∀ id ∈ it.1, ∃ c c', batchPoly P id = some c ∧ batchPoly P' id = some c' ∧
      evalPoly c p = evalPoly c' p) →
    quotientValue P theta p items acc = quotientValue P' theta p items acc
  | [], _, _ => rfl
  | (ids, u, den) :: items, acc, h => by
    rw [quotientValue, quotientValue, thetaSum_congr P P' theta p ids acc (h (ids, u, den) (by simp)),
      quotientValue_congr P P' theta p items _ fun it hit => h it (by simp [hit])]

theorem friChain_bound (hL : L.Lawful A) (M : MerkleLib F Tree Root Path) (pos : Path → Nat)
    (hb : M.Binding pos) (n : Nat) (hA : n ≤ A) (final : List F) (x : Nat) :
    ∀ (steps : List Nat) (t : Nat) (alphas : List F) (roots : List Root)
      (rps : List (FriRoundProof F Path)) (os : List (List F)) (c : List F),
    (∀ s ∈ steps, 1 ≤ s) → t + steps.sum ≤ n → alphas.length = steps.sum → FriOracles L M n steps t roots os →
    (∀ j rp, rps[j]? = some rp → j < steps.length →
      pos rp.p = x % 2 ^ (n - (t + (steps.take (j + 1)).sum))) →
    FriChain L M n final x steps t alphas roots rps c →
    evalPoly c ((L.domain (n - t)).elem x) = evalPoly (os.headD final) ((L.domain (n - t)).elem x) ∧
      (∀ s rest, steps = s :: rest → ∀ i, i % 2 ^ (n - t - s) = x % 2 ^ (n - t - s) →
        evalPoly c ((L.domain (n - t)).elem i) =
          evalPoly (os.headD final) ((L.domain (n - t)).elem i)) ∧
      FriFolds L n final x steps t alphas os
  | [], t, alphas, roots, rps, os, c, _, _, _, ho, _, h => by
    simp only [FriOracles] at ho
    subst ho
    exact ⟨h, by simp, trivial⟩
  | s :: rest, t, alphas, roots, rps, os, c, hs, hsum, hal, ho, hpos, h => by
    simp only [List.sum_cons] at hsum hal
    obtain ⟨root, o, leaves, hroot, hoh, hol, hleaves, hr, ho'⟩ := ho
    obtain ⟨root', rp, c', hroot', hrp, hshow, hc', hch⟩ := h
    rw [hroot, Option.some.injEq] at hroot'
    subst hroot'
    have hs1 := hs s (by simp)
    obtain ⟨o', os, rfl⟩ : ∃ o' os', os = o' :: os' := by
      cases os with
      | nil => simp at hoh
      | cons a b => exact ⟨a, b, rfl⟩
    simp only [List.head?_cons, Option.some.injEq] at hoh
    subst hoh
    have hp0 := hpos 0 rp (by rw [← hrp]; cases rps <;> rfl) (by simp)
    simp only [zero_add, List.take_succ_cons, List.take_zero, List.sum_cons, List.sum_nil,
      add_zero] at hp0
    rw [show n - (t + s) = n - t - s by omega] at hp0
    have hbd := friShows_bound hL M pos hb (n - t) s (by omega) hs1 (by omega) [c] [o'] x root rp.p leaves
      (by simpa using hleaves) hr hp0 hshow
    obtain ⟨hbd, _⟩ := List.forall₂_cons.mp hbd
    obtain ⟨h1, _, h3⟩ := friChain_bound hL M pos hb n hA final x rest (t + s) (alphas.drop s) roots.tail
      rps.tail os c' (fun s' hs' => hs s' (by simp [hs'])) (by omega) (by simp [hal])
      (by simpa using ho')
      (by
        intro j rp' hj hjl
        have := hpos (j + 1) rp' (by rw [← hj]; cases rps <;> simp) (by simpa using hjl)
        simp only [List.take_succ_cons, List.sum_cons] at this
        rw [this, Nat.add_assoc])
      hch
    refine ⟨hbd x rfl, ?_, ?_, h3⟩
    · intro s' rest' he i hi
      obtain ⟨rfl, rfl⟩ := List.cons.inj he
      exact hbd i hi
    · rw [← h1, hc']
      have hl : (alphas.take s).length = s := by rw [List.length_take]; omega
      have := foldAll_coset hL (alphas.take s) (n - t) x c o' (by omega) (by omega)
        (by rw [hl]; exact hbd)
      rw [hl, show n - t - s = n - (t + s) by omega] at this
      exact this.symm

theorem find_forall₂ {V W : Type} (R : Nat → V → W → Prop) : ∀ (m : OMap V) (m' : OMap W) (k : Nat)
    (w : W), List.Forall₂ (fun a b => a.1 = b.1 ∧ R a.1 a.2 b.2) m m' → m'.find k = some w →
    ∃ v, (k, v) ∈ m ∧ R k v w
  | _, _, k, w, .nil, h => by simp [OMap.find] at h
  | _, _, k, w, .cons (a := a) (b := b) (l₁ := m) (l₂ := m') hab hm, h => by
    obtain ⟨k1, v⟩ := a
    obtain ⟨k2, w'⟩ := b
    obtain ⟨rfl, hR⟩ := hab
    simp only [OMap.find] at h
    by_cases hk : k1 = k
    · rw [if_pos hk, Option.some.injEq] at h
      subst h hk
      exact ⟨v, by simp, hR⟩
    · rw [if_neg hk] at h
      obtain ⟨v', hv', hR'⟩ := find_forall₂ R m m' k w hm h
      exact ⟨v', by simp [hv'], hR'⟩

/-- A query whose paths stand at their places, under commitments and roots of trees that bind, is
consistent with what was committed to. -/
theorem friQuery_bound (hL : L.Lawful A) (M : MerkleLib F Tree Root Path) (pos : Path → Nat)
    (hb : M.Binding pos) (n s0 : Nat) (hA : n ≤ A) (steps : List Nat) (hs0 : steps[0]? = some s0)
    (hs : ∀ s ∈ steps, 1 ≤ s) (hsum : steps.sum ≤ n) (commitments : OMap Root)
    (P : OMap (List (List F))) (hP : FriCommitted L M n s0 commitments P) (theta : F)
    (items : List (List (Nat × Nat) × F × List F)) (alphas : List F)
    (hal : alphas.length = steps.sum) (roots : List Root) (os : List (List F))
    (ho : FriOracles L M n steps 0 roots os) (final : List F) (q : FriQueryProof F Path) (x : Nat)
    (hpl : FriPlaced pos n s0 steps q x)
    (h : FriQueryShows L M n s0 steps commitments theta items alphas roots final q x) :
    (∀ i, i % 2 ^ (n - s0) = x % 2 ^ (n - s0) →
      evalPoly (os.headD final) ((L.domain n).elem i) =
        quotientValue P theta ((L.domain n).elem i) items 1) ∧
    FriFolds L n final x steps 0 alphas os := by
  obtain ⟨P', c, hP', hids, hq, hch⟩ := h
  obtain ⟨rest, hsteps⟩ : ∃ rest, steps = s0 :: rest := by
    cases steps with
    | nil => simp at hs0
    | cons a b =>
      simp only [List.getElem?_cons_zero, Option.some.injEq] at hs0
      exact ⟨b, by rw [hs0]⟩
  have hs1 : 1 ≤ s0 := hs s0 (by simp [hsteps])
  have hs0n : s0 ≤ n := by rw [hsteps, List.sum_cons] at hsum; omega
  obtain ⟨_, h2, h3⟩ := friChain_bound hL M pos hb n hA final x steps 0 alphas roots q.roundProofs os c
    hs (by omega) hal ho
    (by
      intro j rp hj _
      rw [zero_add]
      exact hpl.2 j rp hj)
    hch
  refine ⟨fun i hi => ?_, h3⟩
  have := h2 s0 rest hsteps i (by simpa using hi)
  rw [Nat.sub_zero] at this
  rw [← this, (hq i hi).2]
  apply quotientValue_congr
  intro it hit id hid
  obtain ⟨c', hc'⟩ := hids it hit id hid
  obtain ⟨cs', hcs', hget⟩ := Option.bind_eq_some_iff.mp hc'
  obtain ⟨ip, hip, root, hroot, hshow⟩ := find_forall₂
    (fun k (ip : FriInitialProof F Path) cs => ∃ root, commitments.find k = some root ∧
      FriShows L M n s0 cs x root ip.p) _ _ id.1 cs' hP' hcs'
  obtain ⟨cs, leaves, hcs, hleaves, hr⟩ := hP id.1 root hroot
  have hbd := friShows_bound hL M pos hb n s0 hA hs1 hs0n cs' cs x root ip.p leaves hleaves hr
    (hpl.1 _ hip) hshow
  rw [List.forall₂_iff_get] at hbd
  obtain ⟨hlen, hbd⟩ := hbd
  obtain ⟨hi', hgi⟩ := List.getElem?_eq_some_iff.mp hget
  refine ⟨c', cs[id.2]'(by omega), hc', ?_, ?_⟩
  · unfold batchPoly
    rw [hcs, Option.bind_some, List.getElem?_eq_getElem]
  · have := hbd id.2 hi' (by omega) i hi
    simp only [List.get_eq_getElem, hgi] at this
    exact this

/-- **C67** (with binding trees): if the trees bind, the commitments are to the batches `P`, the roots of
the rounds to the polynomials `os`, and the paths of the queries stand at the places of the query
points, then an accepted proof is consistent with the committed polynomials at every query point: on
the coset of the point the first one is the combined quotient of the openings, and each one folds, with
the challenges drawn after its root, into the next, and the last into the final polynomial. -/
theorem C67_consistent [DecidableEq F] [DecidableEq Root] (hL : L.Lawful A)
    (M : MerkleLib F Tree Root Path) (pos : Path → Nat) (hb : M.Binding pos)
    (T : FriTranscript S F Root) (prm : FriParams F) (n d : Nat)
    (hA : n ≤ A) (hr : prm.r ≤ n) (hD : ∀ t < prm.r, prm.D[t]? = some (L.domain (n - t)))
    (hd : prm.maxDegree + 1 = 2 ^ d) (proof : FriProof F Root Path) (commitments : OMap Root)
    (s0 : Nat) (hs0 : prm.stepList[0]? = some s0)
    (P : OMap (List (List F))) (hP : FriCommitted L M n s0 commitments P) (os : List (List F))
    (ho : FriOracles L M n prm.stepList 0 proof.friRoots os)
    (theta : F) (items : List (List (Nat × Nat) × F × List F)) (st st' : S)
    (hpl : ∀ i q x, proof.queryProofs[i]? = some q → x < 2 ^ n →
      FriQueryPoint T L prm proof n st i x → FriPlaced pos n s0 prm.stepList q x)
    (h : friVerify M T prm proof commitments theta items st = some (true, st')) :
    ∃ st1 alphas, friAlphas T prm.stepList proof.friRoots st = some (st1, alphas) ∧
      ∀ i < prm.lambda, ∃ x < 2 ^ n, FriQueryPoint T L prm proof n st i x ∧
        (∀ j, j % 2 ^ (n - s0) = x % 2 ^ (n - s0) →
          evalPoly (os.headD proof.finalPolynomial) ((L.domain n).elem j) =
            quotientValue P theta ((L.domain n).elem j) items 1) ∧
        FriFolds L n proof.finalPolynomial x prm.stepList 0 alphas os := by
  obtain ⟨hsl, hdeg, s0', st1, alphas, st2, hs0', hal, hpow, hst, hq⟩ := C67_accepted_shows hL M T prm n d
    hA hr hD hd proof commitments theta items st st' h
  rw [hs0, Option.some.injEq] at hs0'
  subst hs0'
  refine ⟨st1, alphas, hal, fun i hi => ?_⟩
  have hlt : i < (friChallenges T prm.lambda st2).2.length := by rw [length_friChallenges]; exact hi
  obtain ⟨q, hqi, x, hx, hel, hshow⟩ := hq i _ (List.getElem?_eq_getElem hlt)
  have hpt : FriQueryPoint T L prm proof n st i x :=
    ⟨st1, alphas, st2, _, hal, hpow, List.getElem?_eq_getElem hlt, hel⟩
  have hlen := length_friAlphas T _ _ _ _ _ hal
  obtain ⟨h1, h2⟩ := friQuery_bound hL M pos hb n s0 hA prm.stepList hs0 (fun s hs => (hsl.1 s hs).1)
    (by rw [hsl.2.1]; exact hr) commitments P hP theta items alphas hlen proof.friRoots os ho
    proof.finalPolynomial q x (hpl i q x hqi hx hpt) hshow
  exact ⟨x, hx, hpt, h1, h2⟩

/-! ## a quotient of too high degree -/

theorem foldAll_cons (a : F) (as c : List F) : foldAll (a :: as) c = foldAll as (foldList a c) := rfl

theorem foldAll_append (as bs c : List F) : foldAll (as ++ bs) c = foldAll bs (foldAll as c) := by
  unfold foldAll
  rw [List.foldl_append]

theorem foldAll_same (as : List F) : ∀ (c o : List F), (∀ i, c.getD i 0 = o.getD i 0) →
    ∀ i, (foldAll as c).getD i 0 = (foldAll as o).getD i 0 := by
  induction as with
  | nil => exact fun c o h => h
  | cons a as ih =>
    intro c o h
    refine ih (foldList a c) (foldList a o) fun i => ?_
    rw [getD_foldList, getD_foldList, h, h]

/-- Polynomials small enough for a domain that agree on it are the same. -/
theorem same_of_agree (hL : L.Lawful A) (n : Nat) (hn : n ≤ A) (c o : List F) (hc : c.length ≤ 2 ^ n)
    (ho : o.length ≤ 2 ^ n)
    (h : ∀ x < 2 ^ n, evalPoly c ((L.domain n).elem x) = evalPoly o ((L.domain n).elem x)) (i : Nat) :
    c.getD i 0 = o.getD i 0 := by
  classical
  rw [← coeff_toPoly, ← coeff_toPoly]
  congr 1
  have hcard : ((Finset.range (2 ^ n)).image fun j => (L.domain n).elem j).card = 2 ^ n := by
    rw [Finset.card_image_of_injOn, Finset.card_range]
    intro a ha b hb hab
    simp only [Finset.coe_range, Set.mem_Iio] at ha hb
    exact elem_injective hL n hn a b ha hb hab
  refine eq_of_degrees_lt_of_eval_finset_eq ((Finset.range (2 ^ n)).image fun j => (L.domain n).elem j)
    ?_ ?_ ?_
  · rw [hcard]
    exact lt_of_lt_of_le (degree_toPoly c) (by exact_mod_cast hc)
  · rw [hcard]
    exact lt_of_lt_of_le (degree_toPoly o) (by exact_mod_cast ho)
  · intro y hy
    obtain ⟨j, hj, rfl⟩ := Finset.mem_image.mp hy
    rw [eval_toPoly, eval_toPoly]
    exact h j (Finset.mem_range.mp hj)

theorem friOracles_length (M : MerkleLib F Tree Root Path) (n : Nat) : ∀ (steps : List Nat) (t : Nat)
    (roots : List Root) (os : List (List F)), FriOracles L M n steps t roots os →
    os.length = steps.length
  | [], _, _, _, h => by rw [FriOracles] at h; simp [h]
  | s :: rest, t, roots, os, h => by
    obtain ⟨_, o, _, _, ho, _, _, _, h⟩ := h
    cases os with
    | nil => simp at ho
    | cons o' os => simpa using friOracles_length M n rest (t + s) roots.tail os (by simpa using h)

/-- If the folding is right at all points, the final polynomial is the first one folded with all
challenges. -/
theorem friFolds_all (hL : L.Lawful A) (M : MerkleLib F Tree Root Path) (n : Nat) (hA : n ≤ A)
    (final : List F) : ∀ (steps : List Nat) (t : Nat) (alphas : List F) (roots : List Root)
      (os : List (List F)), t + steps.sum ≤ n → alphas.length = steps.sum →
    final.length ≤ 2 ^ (n - (t + steps.sum)) → FriOracles L M n steps t roots os →
    (∀ x < 2 ^ n, FriFolds L n final x steps t alphas os) →
    ∀ i, final.getD i 0 = (foldAll alphas (os.headD final)).getD i 0
  | [], t, alphas, roots, os, _, hal, _, ho, _ => by
    rw [FriOracles] at ho
    rw [List.sum_nil, List.length_eq_zero_iff] at hal
    subst ho hal
    exact fun i => rfl
  | s :: rest, t, alphas, roots, os, hsum, hal, hfin, ho, h => by
    obtain ⟨root, o, leaves, _, hoh, hol, _, _, ho'⟩ := ho
    obtain ⟨o', os, rfl⟩ : ∃ o' os', os = o' :: os' := by
      cases os with
      | nil => simp at hoh
      | cons a b => exact ⟨a, b, rfl⟩
    simp only [List.head?_cons, Option.some.injEq] at hoh
    subst hoh
    simp only [List.sum_cons] at hsum hal hfin
    simp only [List.tail_cons] at ho'
    have hlt : (alphas.take s).length = s := by rw [List.length_take]; omega
    have hih := friFolds_all hL M n hA final rest (t + s) (alphas.drop s) roots.tail os (by omega)
      (by simp [hal]) (by rw [Nat.add_assoc]; exact hfin) ho' (fun x hx => (h x hx).2)
    have hnext : (os.headD final).length ≤ 2 ^ (n - (t + s)) := by
      cases rest with
      | nil =>
        rw [FriOracles] at ho'
        subst ho'
        simpa using hfin
      | cons s' rest =>
        obtain ⟨_, o2, _, _, ho2, hol2, _⟩ := ho'
        cases os with
        | nil => simp at ho2
        | cons a b =>
          simp only [List.head?_cons, Option.some.injEq] at ho2
          subst ho2
          simpa using hol2
    have hlen := length_foldAll (alphas.take s) o' (n - t) hol
    rw [hlt, show n - t - s = n - (t + s) by omega] at hlen
    have hsame := same_of_agree hL (n - (t + s)) (by omega) (foldAll (alphas.take s) o') (os.headD final)
      hlen hnext
      (fun x hx => (h x (lt_of_lt_of_le hx (Nat.pow_le_pow_right (by norm_num) (by omega)))).1)
    intro i
    rw [hih i, List.headD_cons]
    conv_rhs => rw [← List.take_append_drop s alphas, foldAll_append]
    exact (foldAll_same (alphas.drop s) _ _ hsame i).symm

/-- **C67**: of all challenges at most one hides the degree of a given polynomial. -/
theorem C67_bad_at_most_one (c : List F) (b : Nat) : (friBad c b).Subsingleton := by
  rintro a ⟨⟨i, hi, hne⟩, h⟩ a' ⟨_, h'⟩
  have h1 := h (i / 2) (by omega)
  have h2 := h' (i / 2) (by omega)
  rw [getD_foldList] at h1 h2
  have hne' : c.getD (2 * (i / 2) + 1) 0 ≠ 0 := by
    intro h0
    rw [h0, mul_zero, add_zero] at h1
    rcases Nat.mod_two_eq_zero_or_one i with hm | hm
    · exact hne (by rw [← h1]; congr 1; omega)
    · exact hne (by rw [← h0]; congr 1; omega)
  exact mul_right_cancel₀ hne' (add_left_cancel (h1.trans h2.symm))

theorem degree_kept : ∀ (alphas c : List F) (D : Nat), alphas.length ≤ D →
    (∃ i, 2 ^ D ≤ i ∧ c.getD i 0 ≠ 0) →
    (∀ k a, alphas[k]? = some a → a ∉ friBad (foldAll (alphas.take k) c) (2 ^ (D - (k + 1)))) →
    ∃ i, 2 ^ (D - alphas.length) ≤ i ∧ (foldAll alphas c).getD i 0 ≠ 0
  | [], _, _, _, h, _ => h
  | a :: as, c, D, hl, h, hb => by
    obtain ⟨D, rfl⟩ : ∃ m, D = m + 1 := ⟨D - 1, by simp at hl; omega⟩
    simp only [List.length_cons] at hl ⊢
    rw [show D + 1 - (as.length + 1) = D - as.length by omega, foldAll_cons]
    refine degree_kept as (foldList a c) D (by omega) ?_ ?_
    · by_contra hno
      push Not at hno
      refine hb 0 a rfl ⟨?_, ?_⟩
      · obtain ⟨i, hi, hne⟩ := h
        refine ⟨i, ?_, hne⟩
        rw [zero_add, Nat.add_sub_cancel, ← pow_succ']
        exact hi
      · rw [zero_add, Nat.add_sub_cancel]
        exact hno
    · intro k a' hk
      have := hb (k + 1) a' (by simpa using hk)
      rw [List.take_succ_cons, foldAll_cons, show D + 1 - (k + 1 + 1) = D - (k + 1) by omega] at this
      exact this

/-- **C67**: if the combined quotient of the openings, as a polynomial `cQ` over the domain, has a
coefficient from twice the allowed length on, and no challenge of the rounds is the one that hides it,
then, whatever polynomials the roots commit to and whatever the final polynomial is, some point of the
domain exposes it: no accepted proof with these roots and this final polynomial, whose paths stand at
their places, has a query there. -/
theorem C67_exposed [DecidableEq F] [DecidableEq Root] (hL : L.Lawful A)
    (M : MerkleLib F Tree Root Path) (pos : Path → Nat) (hb : M.Binding pos)
    (T : FriTranscript S F Root) (prm : FriParams F) (n d : Nat)
    (hA : n ≤ A) (hr : prm.r ≤ n) (hD : ∀ t < prm.r, prm.D[t]? = some (L.domain (n - t)))
    (hd : prm.maxDegree + 1 = 2 ^ d) (commitments : OMap Root)
    (s0 : Nat) (hs0 : prm.stepList[0]? = some s0)
    (P : OMap (List (List F))) (hP : FriCommitted L M n s0 commitments P)
    (roots : List Root) (os : List (List F)) (ho : FriOracles L M n prm.stepList 0 roots os)
    (theta : F) (items : List (List (Nat × Nat) × F × List F))
    (cQ : List F) (hlen : cQ.length ≤ 2 ^ n)
    (hcQ : ∀ x, evalPoly cQ ((L.domain n).elem x) = quotientValue P theta ((L.domain n).elem x) items 1)
    (hhigh : ∃ i, 2 * (prm.maxDegree + 1) ≤ i ∧ cQ.getD i 0 ≠ 0)
    (st st1 : S) (alphas : List F) (hal : friAlphas T prm.stepList roots st = some (st1, alphas))
    (hgood : ∀ k a, alphas[k]? = some a →
      a ∉ friBad (foldAll (alphas.take k) cQ) (2 ^ (d - k)))
    (final : List F) :
    ∃ x < 2 ^ n, ∀ (proof : FriProof F Root Path) (st' : S), proof.friRoots = roots →
      proof.finalPolynomial = final →
      (∀ i q x, proof.queryProofs[i]? = some q → x < 2 ^ n →
        FriQueryPoint T L prm proof n st i x → FriPlaced pos n s0 prm.stepList q x) →
      friVerify M T prm proof commitments theta items st = some (true, st') →
      ∀ i < prm.lambda, ¬ FriQueryPoint T L prm proof n st i x := by
  by_contra hno
  push Not at hno
  have hpos : 0 < 2 ^ n := Nat.pow_pos (by norm_num)
  have hlal := length_friAlphas T _ _ _ _ _ hal
  -- at every point there is an accepted proof with a query
  have hall : ∀ x < 2 ^ n, ((checkStepList prm.stepList prm.r = true ∧
      (prm.r ≤ d + 1 ∧ final ≠ [] ∧ final.length ≤ 2 ^ (d + 1 - prm.r))) ∧
      evalPoly (os.headD final) ((L.domain n).elem x) =
        quotientValue P theta ((L.domain n).elem x) items 1) ∧
      FriFolds L n final x prm.stepList 0 alphas os := by
    intro x hx
    obtain ⟨proof, st', rfl, rfl, hpl, hver, i, hi, hq⟩ := hno x hx
    obtain ⟨hsl, hdeg, -⟩ := C67_accepted_shows hL M T prm n d hA hr hD hd proof commitments theta items
      st st' hver
    obtain ⟨st1', alphas', hal', hcon⟩ := C67_consistent hL M pos hb T prm n d hA hr hD hd proof
      commitments s0 hs0 P hP os ho theta items st st' hpl hver
    rw [hal, Option.some.injEq, Prod.mk.injEq] at hal'
    obtain ⟨rfl, rfl⟩ := hal'
    obtain ⟨x', hx', hq', hquot, hfold⟩ := hcon i hi
    have hxx : x' = x := by
      obtain ⟨s1, a1, s2, ch, e1, e2, e3, e4⟩ := hq
      obtain ⟨s1', a1', s2', ch', e1', e2', e3', e4'⟩ := hq'
      rw [e1, Option.some.injEq, Prod.mk.injEq] at e1'
      obtain ⟨rfl, rfl⟩ := e1'
      have hs2 : s2 = s2' := by
        cases hg : prm.useGrinding with
        | false =>
          simp only [hg, Bool.false_eq_true, if_false] at e2 e2'
          rw [e2, e2']
        | true =>
          simp only [hg, if_true] at e2 e2'
          rw [e2, Prod.mk.injEq] at e2'
          exact e2'.2
      subst hs2
      rw [e3, Option.some.injEq] at e3'
      subst e3'
      exact elem_injective hL n hA x' x hx' hx (e4'.trans e4.symm)
    subst hxx
    exact ⟨⟨⟨(checkStepList_iff _ _).mpr hsl, hdeg⟩, hquot x' rfl⟩, hfold⟩
  obtain ⟨⟨⟨hchk, hrd, hne, hfl⟩, -⟩, -⟩ := hall 0 hpos
  have hsl := (checkStepList_iff _ _).mp hchk
  rw [hsl.2.1] at hlal
  -- the bound on the degree lies within the domain
  obtain ⟨i, hi, hci⟩ := hhigh
  rw [hd, ← pow_succ'] at hi
  have hdn : d + 1 ≤ n := by
    by_contra hlt
    apply hci
    rw [List.getD_eq_default]
    have : 2 ^ n ≤ 2 ^ (d + 1) := Nat.pow_le_pow_right (by norm_num) (by omega)
    omega
  have hfin : final.length ≤ 2 ^ (n - prm.r) :=
    hfl.trans (Nat.pow_le_pow_right (by norm_num) (by omega))
  have hfold := friFolds_all hL M n hA final prm.stepList 0 alphas roots os
    (by rw [hsl.2.1]; omega) (by rw [hsl.2.1]; exact hlal) (by rw [hsl.2.1, zero_add]; exact hfin) ho
    (fun x hx => (hall x hx).2)
  have hfirst : (os.headD final).length ≤ 2 ^ n := by
    cases hst : prm.stepList with
    | nil => rw [hst] at hs0; simp at hs0
    | cons s rest =>
      rw [hst] at ho
      obtain ⟨_, o, _, _, hoh, hol, _⟩ := ho
      cases os with
      | nil => simp at hoh
      | cons a b =>
        simp only [List.head?_cons, Option.some.injEq] at hoh
        subst hoh
        simpa using hol
  have hsame := same_of_agree hL n hA (os.headD final) cQ hfirst hlen
    (fun x hx => (hall x hx).1.2.trans (hcQ x).symm)
  obtain ⟨j, hj, hcj⟩ := degree_kept alphas cQ (d + 1) (by omega) ⟨i, hi, hci⟩ (by
    intro k a hk
    rw [show d + 1 - (k + 1) = d - k by omega]
    exact hgood k a hk)
  apply hcj
  rw [← foldAll_same alphas _ _ hsame j, ← hfold j, List.getD_eq_default]
  rw [hlal] at hj
  omega

end Crypto3Zk
