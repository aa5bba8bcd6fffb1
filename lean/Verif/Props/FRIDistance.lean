import Verif.Lemmas.FRIDistance
import Verif.Props.LPCSound

/-!
# C67: how many queries expose a function that is far from the polynomials allowed
-/

namespace Crypto3Zk

set_option linter.unusedSectionVars false

open Polynomial

variable {F : Type} [Field F] [DecidableEq F] {Tree Root Path S : Type} {L : FftLib F} {A : Nat}

/-- **C67**: of all challenges at most one is lucky for a given function: folding with any other one
keeps, in shares of the domain, at least half of its distance from the polynomials allowed. -/
theorem C67_lucky_at_most_one (hL : L.Lawful A) (m : Nat) (hm : m < A) (g : List F) (b : Nat) :
    (friLucky L m g b).Subsingleton := by
  rintro a ⟨e, h, hn⟩ a' ⟨e', h', hn'⟩
  by_contra ha
  have h2 := near_of_two hL m hm g b e e' a a' ha h h'
  rcases Nat.le_total e e' with hle | hle
  · exact hn' (h2.mono (by omega))
  · exact hn (h2.mono (by omega))

/-- **C67**: for a polynomial of the allowed length no challenge is lucky. -/
theorem C67_honest_never_lucky (m : Nat) (g : List F) (b : Nat) (hg : g.length ≤ 2 * b) :
    friLucky L m g b = ∅ := by
  ext a
  simp only [friLucky, Set.mem_setOf_eq, Set.mem_empty_iff_false, iff_false, not_exists, not_and, not_not]
  intro e _
  exact ⟨g, hg, by simp [friMisses]⟩

/-- An accepted proof has its queries outside of the points that spoil its consistency. -/
theorem friQueryPoint_unique (hL : L.Lawful A) (T : FriTranscript S F Root) (prm : FriParams F)
    (n : Nat) (hA : n ≤ A) (proof : FriProof F Root Path) (st : S) (i x x' : Nat) (hx : x < 2 ^ n)
    (hx' : x' < 2 ^ n) (hq : FriQueryPoint T L prm proof n st i x)
    (hq' : FriQueryPoint T L prm proof n st i x') : x' = x := by
  obtain ⟨s1, a1, s2, ch, e1, e2, e3, e4⟩ := hq
  obtain ⟨s1', a1', s2', ch', e1', e2', e3', e4'⟩ := hq'
  rw [e1, Option.some.injEq, Prod.mk.injEq] at e1'
  obtain ⟨rfl, rfl⟩ := e1'
  have hs2 : s2 = s2' := by
    cases hg : prm.useGrinding with
    | false =>
      simp only [hg, Bool.false_eq_true, if_false] at e2 e2'
      rw [e2, e2']
    | true =>
      simp only [hg, if_true] at e2 e2'
      rw [e2, Prod.mk.injEq] at e2'
      exact e2'.2
  subst hs2
  rw [e3, Option.some.injEq] at e3'
  subst e3'
  exact elem_injective hL n hA x' x hx' hx (e4'.trans e4.symm)

/-- **C67** (the share of exposing queries): let the combined quotient of the openings, as a function `cQ`
on the domain, differ in more than `e` points from every polynomial of at most twice the allowed
length, and let no challenge of the rounds be lucky. Then, whatever functions the roots commit to and
whatever the final polynomial is, more than `e / 2 ^ (r + 1)` points of the domain expose it: no accepted
proof with these roots and this final polynomial, whose paths stand at their places, has a query at
one of them. -/
theorem C67_share [DecidableEq Root] (hL : L.Lawful A)
    (M : MerkleLib F Tree Root Path) (pos : Path → Nat) (hb : M.Binding pos)
    (T : FriTranscript S F Root) (prm : FriParams F) (n d : Nat)
    (hA : n ≤ A) (hr : prm.r ≤ n) (hD : ∀ t < prm.r, prm.D[t]? = some (L.domain (n - t)))
    (hd : prm.maxDegree + 1 = 2 ^ d) (commitments : OMap Root)
    (s0 : Nat) (hs0 : prm.stepList[0]? = some s0)
    (P : OMap (List (List F))) (hP : FriCommitted L M n s0 commitments P)
    (roots : List Root) (os : List (List F)) (ho : FriOracles L M n prm.stepList 0 roots os)
    (theta : F) (items : List (List (Nat × Nat) × F × List F))
    (cQ : List F)
    (hcQ : ∀ x, evalPoly cQ ((L.domain n).elem x) = quotientValue P theta ((L.domain n).elem x) items 1)
    (e : Nat) (hfar : ¬ FriNear L n cQ (2 * (prm.maxDegree + 1)) e)
    (st st1 : S) (alphas : List F) (hal : friAlphas T prm.stepList roots st = some (st1, alphas))
    (hgood : FriSteady L n (d + 1) prm.stepList 0 alphas os)
    (final : List F) :
    ∃ B : Finset Nat, B ⊆ Finset.range (2 ^ n) ∧ e < 2 ^ (prm.r + 1) * B.card ∧
      ∀ x ∈ B, ∀ (proof : FriProof F Root Path) (st' : S), proof.friRoots = roots →
      proof.finalPolynomial = final →
      (∀ i q x, proof.queryProofs[i]? = some q → x < 2 ^ n →
        FriQueryPoint T L prm proof n st i x → FriPlaced pos n s0 prm.stepList q x) →
      friVerify M T prm proof commitments theta items st = some (true, st') →
      ∀ i < prm.lambda, ¬ FriQueryPoint T L prm proof n st i x := by
  classical
  rw [hd, ← pow_succ'] at hfar
  have hlal := length_friAlphas T _ _ _ _ _ hal
  by_cases hok : checkStepList prm.stepList prm.r = true ∧ prm.r ≤ d + 1 ∧
      final.length ≤ 2 ^ (d + 1 - prm.r)
  · obtain ⟨hchk, hrd, hfl⟩ := hok
    have hsl := (checkStepList_iff _ _).mp hchk
    let B := (Finset.range (2 ^ n)).filter fun x =>
      ¬ (evalPoly cQ ((L.domain n).elem x) = evalPoly (os.headD final) ((L.domain n).elem x) ∧
        FriFolds L n final x prm.stepList 0 alphas os)
    refine ⟨B, Finset.filter_subset _ _, ?_, ?_⟩
    · obtain ⟨e0, hnear, he0⟩ := near_rounds hL M n (d + 1) hA final B prm.stepList 0 alphas roots os
        (by rw [hsl.2.1]; omega) (by rw [hsl.2.1]; omega) hlal (by rw [hsl.2.1, zero_add]; exact hfl)
        ho hgood (by
          intro x hx hxB
          by_contra hno
          exact hxB (Finset.mem_filter.mpr ⟨Finset.mem_range.mpr hx, fun h => hno h.2⟩))
      rw [Nat.sub_zero, Nat.sub_zero] at hnear
      rw [pow_zero, mul_one] at he0
      have hn := near_trans (g := cQ) hnear
      have hsub : friMisses L n cQ (os.headD final) ⊆ B := by
        intro x hx
        rw [friMisses, Finset.mem_filter] at hx
        exact Finset.mem_filter.mpr ⟨hx.1, fun h => hx.2 h.1⟩
      have hcard := Finset.card_le_card hsub
      have hlt : e < e0 + (friMisses L n cQ (os.headD final)).card := by
        by_contra hle
        exact hfar (hn.mono (by omega))
      have hw := friWeight_le prm.stepList (fun s hs => (hsl.1 s hs).1)
      rw [hsl.2.1] at hw
      calc e < e0 + (friMisses L n cQ (os.headD final)).card := hlt
        _ ≤ friWeight prm.stepList * B.card + B.card := by omega
        _ = (friWeight prm.stepList + 1) * B.card := by ring
        _ ≤ 2 ^ (prm.r + 1) * B.card := Nat.mul_le_mul_right _ (by omega)
    · rintro x hxB proof st' rfl rfl hpl hver i hi hq
      obtain ⟨hxr, hbad⟩ := Finset.mem_filter.mp hxB
      rw [Finset.mem_range] at hxr
      obtain ⟨st1', alphas', hal', hcon⟩ := C67_consistent hL M pos hb T prm n d hA hr hD hd proof
        commitments s0 hs0 P hP os ho theta items st st' hpl hver
      rw [hal, Option.some.injEq, Prod.mk.injEq] at hal'
      obtain ⟨rfl, rfl⟩ := hal'
      obtain ⟨x', hx', hq', hquot, hfold⟩ := hcon i hi
      have hxx := friQueryPoint_unique hL T prm n hA proof st i x x' hxr hx' hq hq'
      subst hxx
      exact hbad ⟨(hcQ x').trans (hquot x' rfl).symm, hfold⟩
  · refine ⟨Finset.range (2 ^ n), subset_rfl, ?_, ?_⟩
    · rw [Finset.card_range]
      have : e < 2 ^ n := by
        by_contra hle
        refine hfar ⟨[], by simp, ?_⟩
        refine (Finset.card_le_card (Finset.filter_subset _ _)).trans ?_
        rw [Finset.card_range]
        omega
      calc e < 2 ^ n := this
        _ = 1 * 2 ^ n := (one_mul _).symm
        _ ≤ 2 ^ (prm.r + 1) * 2 ^ n := Nat.mul_le_mul_right _ Nat.one_le_two_pow
    · rintro x _ proof st' rfl rfl hpl hver i hi hq
      obtain ⟨hsl, hdeg, -⟩ := C67_accepted_shows hL M T prm n d hA hr hD hd proof commitments theta items
        st st' hver
      exact hok ⟨(checkStepList_iff _ _).mpr hsl, hdeg.1, hdeg.2.2⟩

/-! ## from the combined quotient to the single openings -/

/-- All claims in the order in which they are combined. -/
def flatClaims (claims : List (F × List ((Nat × Nat) × F))) : List (F × (Nat × Nat) × F) :=
  claims.flatMap fun e => e.2.map fun t => (e.1, t)

/-- The quotient of one claim at the point `y`. -/
def oneQuotient (P : OMap (List (List F))) (y : F) (q : F × (Nat × Nat) × F) : F :=
  (evalPoly ((batchPoly P q.2.1).getD []) y - q.2.2) / (y - q.1)

theorem claimDiff_evalPoly (theta y : F) : ∀ (ts : List (List F × F)) (acc : F),
    claimDiff theta y acc ts = acc * evalPoly (ts.map fun t => evalPoly t.1 y - t.2) theta
  | [], acc => by simp [claimDiff]
  | (g, v) :: ts, acc => by
    rw [claimDiff, claimDiff_evalPoly theta y ts, List.map_cons, evalPoly_cons]
    ring

theorem evalPoly_append' (a b : List F) (x : F) :
    evalPoly (a ++ b) x = evalPoly a x + x ^ a.length * evalPoly b x := by
  induction a with
  | nil => simp
  | cons c a ih =>
    rw [List.cons_append, evalPoly_cons, evalPoly_cons, ih, List.length_cons, pow_succ]
    ring

theorem evalPoly_map_div (c : F) (a : List F) (x : F) :
    evalPoly (a.map (· / c)) x = evalPoly a x / c := by
  induction a with
  | nil => simp
  | cons d a ih => rw [List.map_cons, evalPoly_cons, evalPoly_cons, ih]; ring

theorem quotientValue_evalPoly (P : OMap (List (List F))) (theta y : F)
    (claims : List (F × List ((Nat × Nat) × F))) :
    quotientValue P theta y (lpcItems theta 1 claims) 1 =
      evalPoly ((flatClaims claims).map (oneQuotient P y)) theta := by
  rw [quotientValue_lpcItems]
  have h : ∀ acc : F, claimQuotient theta y acc (claims.map fun e => (e.1, resolveTerms P e.2)) =
      acc * evalPoly ((flatClaims claims).map (oneQuotient P y)) theta := by
    induction claims with
    | nil => intro acc; simp [claimQuotient, flatClaims]
    | cons e claims ih =>
      intro acc
      rw [List.map_cons, claimQuotient, ih, claimDiff_evalPoly]
      have hf : flatClaims (e :: claims) = e.2.map (fun t => (e.1, t)) ++ flatClaims claims := by
        simp [flatClaims]
      have hone : (e.2.map fun t => (e.1, t)).map (oneQuotient P y) =
          ((resolveTerms P e.2).map fun t => evalPoly t.1 y - t.2).map (· / (y - e.1)) := by
        simp [resolveTerms, oneQuotient, Function.comp_def]
      rw [hf, List.map_append, hone, evalPoly_append', evalPoly_map_div]
      have hl : (resolveTerms P e.2).length = e.2.length := by simp [resolveTerms]
      simp only [List.length_map, hl]
      ring
  rw [h 1, one_mul]

/-- A coefficient of a polynomial from its values. -/
theorem coefficient_of_values (Θ : Finset F) (k : Nat) : ∃ lam : F → F, ∀ c : List F,
    c.length ≤ Θ.card → c.getD k 0 = ∑ θ ∈ Θ, lam θ * evalPoly c θ := by
  refine ⟨fun θ => (Lagrange.basis Θ id θ).coeff k, fun c hc => ?_⟩
  have h := Lagrange.eq_interpolate (s := Θ) (v := id) (f := toPoly c) (Set.injOn_id _)
    (lt_of_lt_of_le (degree_toPoly c) (by exact_mod_cast hc))
  rw [← coeff_toPoly]
  conv_lhs => rw [h]
  rw [Lagrange.interpolate_apply, finset_sum_coeff]
  refine Finset.sum_congr rfl fun θ _ => ?_
  rw [coeff_C_mul, id, eval_toPoly, mul_comm]

theorem exists_combination (Θ : Finset F) (lam : F → F) (u : F → List F) (b : Nat)
    (h : ∀ θ ∈ Θ, (u θ).length ≤ b) :
    ∃ w : List F, w.length ≤ b ∧ ∀ y, evalPoly w y = ∑ θ ∈ Θ, lam θ * evalPoly (u θ) y := by
  induction Θ using Finset.induction_on with
  | empty => exact ⟨[], by simp, by simp⟩
  | insert a Θ ha ih =>
    obtain ⟨w, hw, he⟩ := ih fun θ hθ => h θ (Finset.mem_insert_of_mem hθ)
    refine ⟨polyAdd (polyScale (lam a) (u a)) w, ?_, fun y => ?_⟩
    · rw [length_polyAdd, length_polyScale]
      have := h a (Finset.mem_insert_self _ _)
      omega
    · rw [evalPoly_polyAdd, evalPoly_polyScale, he, Finset.sum_insert ha]

/-- If the combined quotient is near for as many values of `theta` as there are claims, then every claim
is the evaluation of a polynomial near the committed function. -/
theorem claims_of_near (hL : L.Lawful A) (n : Nat) (hA : n ≤ A) (P : OMap (List (List F)))
    (claims : List (F × List ((Nat × Nat) × F)))
    (hout : ∀ e ∈ claims, ∀ x, (L.domain n).elem x ≠ e.1) (b e : Nat) (Θ : Finset F)
    (hΘ : Θ.card = (flatClaims claims).length) (cQ : F → List F)
    (hcQ : ∀ θ ∈ Θ, ∀ x, evalPoly (cQ θ) ((L.domain n).elem x) =
      quotientValue P θ ((L.domain n).elem x) (lpcItems θ 1 claims) 1)
    (hnear : ∀ θ ∈ Θ, FriNear L n (cQ θ) b e)
    (q : F × (Nat × Nat) × F) (hq : q ∈ flatClaims claims) :
    FriOpensNear L n ((batchPoly P q.2.1).getD []) (b + 1) ((flatClaims claims).length * e) q.1
      q.2.2 := by
  obtain ⟨k, hk, hkq⟩ := List.getElem_of_mem hq
  obtain ⟨lam, hlam⟩ := coefficient_of_values Θ k
  choose! u hu hmu using hnear
  obtain ⟨w, hw, hwe⟩ := exists_combination Θ lam u b hu
  refine ⟨polyAdd [q.2.2] (polySub (0 :: w) (polyScale q.1 w)), ?_, ?_, ?_⟩
  · rw [length_polyAdd, length_polySub, length_polyScale]
    simp only [List.length_cons, List.length_nil]
    omega
  · rw [evalPoly_polyAdd, evalPoly_polySub, evalPoly_polyScale]
    simp
  · have hsub : friMisses L n ((batchPoly P q.2.1).getD [])
        (polyAdd [q.2.2] (polySub (0 :: w) (polyScale q.1 w))) ⊆
        Θ.biUnion fun θ => friMisses L n (cQ θ) (u θ) := by
      intro x hx
      rw [friMisses, Finset.mem_filter] at hx
      rw [Finset.mem_biUnion]
      by_contra hno
      push Not at hno
      apply hx.2
      set y := (L.domain n).elem x with hy
      have hne : y - q.1 ≠ 0 := by
        obtain ⟨e', he', t, ht, rfl⟩ : ∃ e' ∈ claims, ∃ t ∈ e'.2, (e'.1, t) = q := by
          simpa [flatClaims] using hq
        exact sub_ne_zero.mpr (hout e' he' x)
      have hval : oneQuotient P y q = evalPoly w y := by
        have h1 := hlam ((flatClaims claims).map (oneQuotient P y)) (by rw [List.length_map, hΘ])
        rw [List.getD_eq_getElem _ _ (by rw [List.length_map]; exact hk), List.getElem_map, hkq] at h1
        rw [h1, hwe]
        refine Finset.sum_congr rfl fun θ hθ => ?_
        rw [← quotientValue_evalPoly, ← hcQ θ hθ x]
        have := hno θ hθ
        rw [friMisses, Finset.mem_filter, not_and, not_not] at this
        rw [this hx.1]
      rw [evalPoly_polyAdd, evalPoly_polySub, evalPoly_polyScale]
      simp only [evalPoly_cons, evalPoly_nil]
      rw [← hval, oneQuotient]
      field_simp
      ring
    refine (Finset.card_le_card hsub).trans (Finset.card_biUnion_le.trans ?_)
    rw [← hΘ, ← smul_eq_mul]
    exact Finset.sum_le_card_nsmul _ _ _ hmu

theorem length_flatClaims (claims : List (F × List ((Nat × Nat) × F))) :
    (flatClaims claims).length = (claims.map fun e => e.2.length).sum := by
  simp [flatClaims, List.length_flatMap]

/-- **C67** (openings, without assumptions on the committed functions): let the commitments be to the
functions `P`, whatever they are, and let the function that one of the claims is about differ in more
than `N * e` points, `N` being the number of claims, from every polynomial of at most twice the allowed
length (plus one) that has the claimed value. Apart from fewer than `N` challenges `theta`, and apart
from at most one challenge in every round, more than `e / 2 ^ (r + 1)` points of the domain expose the
claim: whatever functions the roots of the rounds commit to and whatever the final polynomial is, no
accepted proof, whose paths stand at their places, has a query at one of them. -/
theorem C67_openings_exposed [Fintype F] [DecidableEq Root] (hL : L.Lawful A)
    (M : MerkleLib F Tree Root Path) (pos : Path → Nat) (hb : M.Binding pos)
    (T : FriTranscript S F Root) (prm : FriParams F) (n d : Nat)
    (hA : n ≤ A) (hr : prm.r ≤ n) (hD : ∀ t < prm.r, prm.D[t]? = some (L.domain (n - t)))
    (hd : prm.maxDegree + 1 = 2 ^ d) (commitments : OMap Root)
    (s0 : Nat) (hs0 : prm.stepList[0]? = some s0)
    (P : OMap (List (List F))) (hP : FriCommitted L M n s0 commitments P)
    (claims : List (F × List ((Nat × Nat) × F)))
    (hout : ∀ c ∈ claims, ∀ x, (L.domain n).elem x ≠ c.1)
    (c : F × List ((Nat × Nat) × F)) (hc : c ∈ claims) (t : (Nat × Nat) × F) (ht : t ∈ c.2)
    (f : List F) (hf : batchPoly P t.1 = some f) (e : Nat)
    (hfar : ¬ FriOpensNear L n f (2 * (prm.maxDegree + 1) + 1)
      ((claims.map fun c => c.2.length).sum * e) c.1 t.2) :
    ∃ badTheta : Finset F, badTheta.card < (claims.map fun c => c.2.length).sum ∧
      ∀ theta ∉ badTheta, ∀ (roots : List Root) (os : List (List F)) (st st1 : S) (alphas final : List F),
        FriOracles L M n prm.stepList 0 roots os →
        friAlphas T prm.stepList roots st = some (st1, alphas) →
        FriSteady L n (d + 1) prm.stepList 0 alphas os →
        ∃ B : Finset Nat, B ⊆ Finset.range (2 ^ n) ∧ e < 2 ^ (prm.r + 1) * B.card ∧
          ∀ x ∈ B, ∀ (proof : FriProof F Root Path) (st' : S), proof.friRoots = roots →
          proof.finalPolynomial = final →
          (∀ i q x, proof.queryProofs[i]? = some q → x < 2 ^ n →
            FriQueryPoint T L prm proof n st i x → FriPlaced pos n s0 prm.stepList q x) →
          friVerify M T prm proof commitments theta (lpcItems theta 1 claims) st = some (true, st') →
          ∀ i < prm.lambda, ¬ FriQueryPoint T L prm proof n st i x := by
  classical
  have hq := fun theta => quotient_interpolant hL n hA
    (fun y => quotientValue P theta y (lpcItems theta 1 claims) 1)
  choose cQ hlen hcQ using hq
  refine ⟨Finset.univ.filter fun theta => FriNear L n (cQ theta) (2 * (prm.maxDegree + 1)) e, ?_, ?_⟩
  · by_contra hge
    rw [not_lt, ← length_flatClaims] at hge
    obtain ⟨Θ, hsub, hΘ⟩ := Finset.exists_subset_card_eq hge
    have hmem : (c.1, t) ∈ flatClaims claims := by
      rw [flatClaims, List.mem_flatMap]
      exact ⟨c, hc, List.mem_map.mpr ⟨t, ht, rfl⟩⟩
    have := claims_of_near hL n hA P claims hout (2 * (prm.maxDegree + 1)) e Θ hΘ cQ
      (fun θ _ x => hcQ θ x) (fun θ hθ => (Finset.mem_filter.mp (hsub hθ)).2) (c.1, t) hmem
    rw [length_flatClaims] at this
    simp only [hf, Option.getD_some] at this
    exact hfar this
  · intro theta hth roots os st st1 alphas final ho hal hgood
    refine C67_share hL M pos hb T prm n d hA hr hD hd commitments s0 hs0 P hP roots os ho theta _
      (cQ theta) (hcQ theta) e ?_ st st1 alphas hal hgood final
    intro hn
    exact hth (Finset.mem_filter.mpr ⟨Finset.mem_univ _, hn⟩)

/-- A short polynomial is far from every short polynomial that has another value somewhere. -/
theorem far_of_false (hL : L.Lawful A) (n : Nat) (hA : n ≤ A) (f : List F) (b e : Nat)
    (hf : f.length ≤ b + 1) (x v : F) (hv : evalPoly f x ≠ v)
    (he : e + b < 2 ^ n) : ¬ FriOpensNear L n f (b + 1) e x v := by
  classical
  rintro ⟨u, hu, hux, hm⟩
  have hsplit := Finset.card_filter_add_card_filter_not (s := Finset.range (2 ^ n))
    (fun j => evalPoly f ((L.domain n).elem j) ≠ evalPoly u ((L.domain n).elem j))
  rw [Finset.card_range] at hsplit
  have hm' : ((Finset.range (2 ^ n)).filter fun j =>
    evalPoly f ((L.domain n).elem j) ≠ evalPoly u ((L.domain n).elem j)).card ≤ e := hm
  have hne : toPoly f - toPoly u ≠ 0 := by
    intro h0
    apply hv
    rw [← hux, ← eval_toPoly, ← eval_toPoly, sub_eq_zero.mp h0]
  have hdeg : (toPoly f - toPoly u).natDegree ≤ b := by
    have h1 := degree_toPoly (polySub f u)
    rw [toPoly_polySub, length_polySub] at h1
    have h2 : (toPoly f - toPoly u).degree < ((b + 1 : Nat) : WithBot Nat) :=
      lt_of_lt_of_le h1 (by exact_mod_cast max_le hf hu)
    exact Nat.lt_succ_iff.mp ((natDegree_lt_iff_degree_lt hne).mpr h2)
  have hroots : ((Finset.range (2 ^ n)).filter fun j =>
    ¬ evalPoly f ((L.domain n).elem j) ≠ evalPoly u ((L.domain n).elem j)).card ≤ b := by
    rw [← Finset.card_image_of_injOn (f := (L.domain n).elem)]
    · refine le_trans ?_ ((card_roots' (toPoly f - toPoly u)).trans hdeg)
      refine le_trans (Finset.card_le_card ?_) (Multiset.toFinset_card_le _)
      intro y hy
      obtain ⟨j, hj, rfl⟩ := Finset.mem_image.mp hy
      rw [Multiset.mem_toFinset, mem_roots hne, IsRoot, eval_sub, eval_toPoly, eval_toPoly, sub_eq_zero]
      exact not_not.mp (Finset.mem_filter.mp hj).2
    · intro a ha c hc hac
      have ha' := Finset.mem_range.mp (Finset.mem_filter.mp ha).1
      have hc' := Finset.mem_range.mp (Finset.mem_filter.mp hc).1
      exact elem_injective hL n hA a c ha' hc' hac
  omega

/-- **C67** (false openings of a polynomial): let the polynomial that one of the claims is about be of at
most twice the allowed length (plus one), and let the claim be false. With `N` claims and any `e` with
`N * e + 2 * (maxDegree + 1) < 2 ^ n`: apart from fewer than `N` challenges `theta`, and apart from at
most one challenge in every round, more than `e / 2 ^ (r + 1)` points of the domain expose it. Nothing is
assumed of the other committed functions or of those committed in the rounds. -/
theorem C67_false_claim_share [Fintype F] [DecidableEq Root] (hL : L.Lawful A)
    (M : MerkleLib F Tree Root Path) (pos : Path → Nat) (hb : M.Binding pos)
    (T : FriTranscript S F Root) (prm : FriParams F) (n d : Nat)
    (hA : n ≤ A) (hr : prm.r ≤ n) (hD : ∀ t < prm.r, prm.D[t]? = some (L.domain (n - t)))
    (hd : prm.maxDegree + 1 = 2 ^ d) (commitments : OMap Root)
    (s0 : Nat) (hs0 : prm.stepList[0]? = some s0)
    (P : OMap (List (List F))) (hP : FriCommitted L M n s0 commitments P)
    (claims : List (F × List ((Nat × Nat) × F)))
    (hout : ∀ c ∈ claims, ∀ x, (L.domain n).elem x ≠ c.1)
    (c : F × List ((Nat × Nat) × F)) (hc : c ∈ claims) (t : (Nat × Nat) × F) (ht : t ∈ c.2)
    (f : List F) (hf : batchPoly P t.1 = some f) (hlen : f.length ≤ 2 * (prm.maxDegree + 1) + 1)
    (hfalse : evalPoly f c.1 ≠ t.2) (e : Nat)
    (he : (claims.map fun c => c.2.length).sum * e + 2 * (prm.maxDegree + 1) < 2 ^ n) :
    ∃ badTheta : Finset F, badTheta.card < (claims.map fun c => c.2.length).sum ∧
      ∀ theta ∉ badTheta, ∀ (roots : List Root) (os : List (List F)) (st st1 : S) (alphas final : List F),
        FriOracles L M n prm.stepList 0 roots os →
        friAlphas T prm.stepList roots st = some (st1, alphas) →
        FriSteady L n (d + 1) prm.stepList 0 alphas os →
        ∃ B : Finset Nat, B ⊆ Finset.range (2 ^ n) ∧ e < 2 ^ (prm.r + 1) * B.card ∧
          ∀ x ∈ B, ∀ (proof : FriProof F Root Path) (st' : S), proof.friRoots = roots →
          proof.finalPolynomial = final →
          (∀ i q x, proof.queryProofs[i]? = some q → x < 2 ^ n →
            FriQueryPoint T L prm proof n st i x → FriPlaced pos n s0 prm.stepList q x) →
          friVerify M T prm proof commitments theta (lpcItems theta 1 claims) st = some (true, st') →
          ∀ i < prm.lambda, ¬ FriQueryPoint T L prm proof n st i x :=
  C67_openings_exposed hL M pos hb T prm n d hA hr hD hd commitments s0 hs0 P hP claims hout c hc t ht f hf
    e (far_of_false hL n hA f _ _ hlen c.1 t.2 hfalse he)

/-! ## a concrete case -/

/-- The rounds of the honest proof are steady, so the theorems speak about reachable runs. -/
example : ∃ st1 alphas, friAlphas exFriTranscript [1, 1] exSoundProof.friRoots 0 = some (st1, alphas) ∧
    FriOracles (FftLib.ofRoots exRoots17) (listMerkle (ZMod 17)) 4 [1, 1] 0 exSoundProof.friRoots
      [[5, 1], [14]] ∧
    FriSteady (FftLib.ofRoots exRoots17) 4 3 [1, 1] 0 alphas [[5, 1], [14]] := by
  obtain ⟨⟨st1, alphas⟩, h⟩ : ∃ v, friAlphas exFriTranscript [1, 1] exSoundProof.friRoots 0 = some v :=
    Option.isSome_iff_exists.mp (by decide +kernel)
  refine ⟨st1, alphas, h, exSound_oracles, ?_, ?_, trivial⟩
  · intro k hk a _
    obtain rfl : k = 0 := by omega
    rw [C67_honest_never_lucky _ _ _ (by simp [foldAll])]
    simp
  · intro k hk a _
    obtain rfl : k = 0 := by omega
    rw [C67_honest_never_lucky _ _ _ (by simp [foldAll])]
    simp

/-- The false claim that the committed polynomial has the value `4` at zero: with one claim and `e = 7` all
hypotheses of `C67_false_claim_share` are met, no `theta` is excluded, and some point is exposed
whatever the rounds commit to. -/
example : ∀ theta : ZMod 17, ∀ roots os (st st1 : Nat) alphas final,
      FriOracles (FftLib.ofRoots exRoots17) (listMerkle (ZMod 17)) 4 [1, 1] 0 roots os →
      friAlphas exFriTranscript [1, 1] roots st = some (st1, alphas) →
      FriSteady (FftLib.ofRoots exRoots17) 4 3 [1, 1] 0 alphas os →
      ∃ B : Finset Nat, B ⊆ Finset.range (2 ^ 4) ∧ B.Nonempty ∧
        ∀ x ∈ B, ∀ (proof : FriProof (ZMod 17) (List (List (ZMod 17))) (List (List (ZMod 17)) × Nat))
        (st' : Nat), proof.friRoots = roots → proof.finalPolynomial = final →
        (∀ i q x, proof.queryProofs[i]? = some q → x < 2 ^ 4 →
          FriQueryPoint exFriTranscript (FftLib.ofRoots exRoots17) exSoundParams proof 4 st i x →
          FriPlaced Prod.snd 4 1 [1, 1] q x) →
        friVerify (listMerkle (ZMod 17)) exFriTranscript exSoundParams proof [(0, exSoundTree)] theta
          (lpcItems theta 1 [(0, [((0, 0), 4)])]) st = some (true, st') →
        ∀ i < 3, ¬ FriQueryPoint exFriTranscript (FftLib.ofRoots exRoots17) exSoundParams proof 4 st i
          x := by
  obtain ⟨bad, hbad, h⟩ := C67_false_claim_share exLib17_lawful (listMerkle (ZMod 17)) Prod.snd
    listMerkle_binding exFriTranscript
    exSoundParams 4 2 (by norm_num) (by decide) exSound_domains rfl [(0, exSoundTree)] 1 rfl
    [(0, [[3, 5, 1]])] exSound_committed [(0, [((0, 0), 4)])]
    (by
      intro e he x
      simp only [List.mem_singleton] at he
      subst he
      exact elem_ne_zero exLib17_lawful 4 (by norm_num) x)
    (0, [((0, 0), 4)]) (by simp) ((0, 0), 4) (by simp) [3, 5, 1] rfl (by decide) (by decide) 7 (by decide)
  have hb0 : bad = ∅ := by
    rw [← Finset.card_eq_zero]
    have : bad.card < 1 := hbad
    omega
  intro theta roots os st st1 alphas final ho hal hs
  obtain ⟨B, h1, h2, h3⟩ := h theta (by simp [hb0]) roots os st st1 alphas final ho hal hs
  refine ⟨B, h1, ?_, h3⟩
  rw [← Finset.card_pos]
  by_contra h0
  have : B.card = 0 := by omega
  rw [this] at h2
  omega

end Crypto3Zk
