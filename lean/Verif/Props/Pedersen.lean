import Verif.Lemmas.Pedersen
import Mathlib.Algebra.Field.Rat
import Mathlib.Algebra.Module.Prod

/-!
# C49: Pedersen verifiable secret sharing

`pedProve params w rand` is the dealer's output for the secret `w` when the random draws are
`rand`; `pedVerify` is the verification of all shares; `pedMessage` opens the secret with the
parties `idx`.
-/

set_option linter.unusedSectionVars false

namespace Crypto3Zk

open Finset Polynomial

variable {F G : Type} [Field F] [DecidableEq F] [AddCommGroup G] [Module F G] [DecidableEq G]

/-- A list of parties that can open: at least `k` of them, the first `k` exist and are different (as
field elements). -/
structure Quorum (F : Type) [Field F] (params : PedersenParams G) (idx : List Int) : Prop where
  enough : params.k ≤ idx.length
  exist : ∀ i ∈ idx.take params.k, 1 ≤ i ∧ i ≤ params.n
  different : ((idx.take params.k).map fun i : Int => (i : F)).Nodup

theorem Quorum.injOn {params : PedersenParams G} {idx : List Int} (q : Quorum F params idx) :
    Set.InjOn (fun j => ((idx.getD j 0 : Int) : F)) (range params.k : Set Nat) := by
  intro a ha b hb h
  simp only [coe_range, Set.mem_Iio] at ha hb
  have hl := q.enough
  have := List.nodup_iff_injective_get.1 q.different
  have ha' : a < ((idx.take params.k).map fun i : Int => (i : F)).length := by simp; omega
  have hb' : b < ((idx.take params.k).map fun i : Int => (i : F)).length := by simp; omega
  have h2 : ((idx.take params.k).map fun i : Int => (i : F)).get ⟨a, ha'⟩ =
      ((idx.take params.k).map fun i : Int => (i : F)).get ⟨b, hb'⟩ := by
    simp only [List.getD_eq_getElem _ _ (show a < idx.length by omega),
      List.getD_eq_getElem _ _ (show b < idx.length by omega)] at h
    simpa using h
  simpa using this h2

theorem Quorum.index {params : PedersenParams G} {idx : List Int} (q : Quorum F params idx) (j : Nat)
    (hj : j < params.k) : ∃ i : Nat, idx[j]? = some (i : Int) ∧ idx.getD j 0 = (i : Int) ∧
      1 ≤ i ∧ i ≤ params.n := by
  have hl := q.enough
  have hmem : idx[j]'(by omega) ∈ idx.take params.k := by
    rw [List.mem_take_iff_getElem]
    exact ⟨j, by omega, rfl⟩
  obtain ⟨h1, h2⟩ := q.exist _ hmem
  refine ⟨(idx[j]'(by omega)).toNat, ?_, ?_, by omega, by omega⟩
  · rw [List.getElem?_eq_getElem (by omega)]; congr 1; omega
  · rw [List.getD_eq_getElem _ _ (by omega)]; omega

theorem pedMessage_eq (params : PedersenParams G) (prf : PedersenProof F G)
    (hv : pedVerify params prf = some true) (idx : List Int) (q : Quorum F params idx) :
    pedMessage params prf idx = some (∑ j ∈ range params.k,
      zeroWeight (fun j => ((idx.getD j 0 : Int) : F)) params.k j *
        (prf.pk.getD ((idx.getD j 0).toNat - 1) (0, 0)).1) := by
  unfold pedMessage
  rw [if_neg (by have := q.enough; omega), hv]
  simp only [Option.bind_eq_bind, Option.bind_some, Bool.not_true, Bool.false_eq_true, if_false]
  have key : ∀ m, m ≤ params.k → (List.range m).foldlM (m := Option) (fun sum j =>
      (pedWeight params.k idx j).bind fun mult => (idx[j]?).bind fun i =>
        if 1 ≤ i then (prf.pk[(i - 1).toNat]?).bind fun pk => some (sum + mult * pk.1)
        else none) 0 = some (∑ j ∈ range m,
      zeroWeight (fun j => ((idx.getD j 0 : Int) : F)) params.k j *
        (prf.pk.getD ((idx.getD j 0).toNat - 1) (0, 0)).1) := by
    intro m
    induction m with
    | zero => intro _; simp
    | succ m ih =>
      intro hm
      rw [List.range_succ, List.foldlM_append, ih (by omega)]
      obtain ⟨i, hi, hi', h1, h2⟩ := q.index m (by omega)
      have hp := (pedVerify_true params prf).1 hv i h1 h2
      obtain ⟨pk, hpk, _, _⟩ := pedVerifyAt_true params prf i hp
      simp only [List.foldlM_cons, List.foldlM_nil, Option.bind_eq_bind, Option.bind_some,
        Option.pure_def]
      rw [pedWeight_eq params.k idx q.enough q.injOn m (by omega), hi]
      simp only [Option.bind_some]
      rw [if_pos (by omega), show ((i : Int) - 1).toNat = i - 1 by omega, hpk]
      simp only [Option.bind_some]
      rw [Finset.sum_range_succ, hi', show ((i : Int)).toNat = i by omega]
      congr 3
      rw [List.getD_eq_getElem?_getD, hpk]
      rfl
  exact key params.k le_rfl

/-- **C49** (honest shares verify): for every secret, threshold, number of parties and random
draws, the dealer produces one share per party and all of them verify. -/
theorem C49_honest (params : PedersenParams G) (w : F) (rand : Nat → F) :
    ∃ prf, pedProve params w rand = some prf ∧ prf.pk.length = params.n ∧
      prf.E0 = w • params.g + rand 0 • params.h ∧ pedVerify params prf = some true := by
  refine ⟨_, pedProve_eq params w rand, by simp, rfl, ?_⟩
  rw [pedVerify_true]
  intro i h1 h2
  rw [pedVerifyAt_eq params _ i _ (List.getElem?_eq_getElem (by simp; omega)) (by simp)]
  simp only [List.getElem_map, List.getElem_range', one_mul, Option.some.injEq, decide_eq_true_eq]
  rw [show 1 + (i - 1) = i by omega, Finset.sum_smul, Finset.sum_smul, ← Finset.sum_add_distrib]
  refine Finset.sum_congr rfl fun j hj => ?_
  rw [Finset.mem_range] at hj
  cases j with
  | zero => simp
  | succ j =>
    rw [List.getD_cons_succ, List.getD_eq_getElem _ _ (by simp; omega)]
    simp only [List.getElem_map, List.getElem_range', one_mul]
    rw [if_neg (by omega), show 1 + j = j + 1 by omega]
    module

/-- **C49** (any `k` shares open): whenever all shares verify — even if the dealer cheated — any
quorum opens a value `s` that, with some `t`, opens the dealer's commitment `E_0`; `s` and `t` are
the values at zero of the polynomials of degree below `k` through the shares of the quorum. -/
theorem C49_quorum_opens (params : PedersenParams G) (hk : 0 < params.k) (prf : PedersenProof F G)
    (hv : pedVerify params prf = some true) (idx : List Int) (q : Quorum F params idx) :
    ∃ f g : F[X], f.degree < (params.k : WithBot ℕ) ∧ g.degree < (params.k : WithBot ℕ) ∧
      (∀ i ∈ idx.take params.k, ∃ pk, prf.pk[i.toNat - 1]? = some pk ∧
        f.eval (i : F) = pk.1 ∧ g.eval (i : F) = pk.2) ∧
      pedMessage params prf idx = some (f.eval 0) ∧
      prf.E0 = f.eval 0 • params.g + g.eval 0 • params.h := by
  let v : Nat → F := fun j => ((idx.getD j 0 : Int) : F)
  let sh : Nat → F × F := fun j => prf.pk.getD ((idx.getD j 0).toNat - 1) (0, 0)
  have hv' : Set.InjOn v (range params.k : Set Nat) := q.injOn
  let f := Lagrange.interpolate (range params.k) v fun j => (sh j).1
  let g := Lagrange.interpolate (range params.k) v fun j => (sh j).2
  have hf : f.degree < (params.k : WithBot ℕ) := by
    have := Lagrange.degree_interpolate_lt (s := range params.k) (fun j => (sh j).1) hv'
    rwa [card_range] at this
  have hg : g.degree < (params.k : WithBot ℕ) := by
    have := Lagrange.degree_interpolate_lt (s := range params.k) (fun j => (sh j).2) hv'
    rwa [card_range] at this
  have hfe : ∀ j < params.k, f.eval (v j) = (sh j).1 := fun j hj =>
    Lagrange.eval_interpolate_at_node _ hv' (by simpa using hj)
  have hge : ∀ j < params.k, g.eval (v j) = (sh j).2 := fun j hj =>
    Lagrange.eval_interpolate_at_node _ hv' (by simpa using hj)
  have hf0 := sum_zeroWeight_eval v params.k hv' f hf
  have hg0 := sum_zeroWeight_eval v params.k hv' g hg
  have hshare : ∀ j < params.k, ∃ i : Nat, idx[j]? = some (i : Int) ∧ v j = (i : F) ∧
      prf.pk[i - 1]? = some (sh j) ∧
      (sh j).1 • params.g + (sh j).2 • params.h =
        ∑ m ∈ range params.k, v j ^ m • (prf.E0 :: prf.E).getD m 0 := by
    intro j hj
    obtain ⟨i, hi, hi', h1, h2⟩ := q.index j hj
    obtain ⟨pk, hpk, _, he⟩ := pedVerifyAt_true params prf i ((pedVerify_true params prf).1 hv i h1 h2)
    have hs : sh j = pk := by
      simp only [sh]
      rw [hi', show ((i : Int)).toNat = i by omega, List.getD_eq_getElem?_getD, hpk]
      rfl
    have hvj : v j = (i : F) := by simp only [v]; rw [hi']; simp
    refine ⟨i, hi, hvj, by rw [hs, hpk], ?_⟩
    rw [hs, he, hvj, show params.k - 1 + 1 = params.k by omega]
  refine ⟨f, g, hf, hg, ?_, ?_, ?_⟩
  · intro i hi
    obtain ⟨j, hj, rfl⟩ := List.mem_take_iff_getElem.1 hi
    have hjk : j < params.k := by omega
    obtain ⟨i', h1, h2, h3, _⟩ := hshare j hjk
    have h4 : idx[j]'(by omega) = (i' : Int) := by
      rw [List.getElem?_eq_getElem (by omega)] at h1
      exact Option.some.inj h1
    refine ⟨sh j, ?_, ?_, ?_⟩
    · rw [h4, show ((i' : Int)).toNat = i' by omega, h3]
    · rw [h4, Int.cast_natCast, ← h2, hfe j hjk]
    · rw [h4, Int.cast_natCast, ← h2, hge j hjk]
  · rw [pedMessage_eq params prf hv idx q, ← hf0]
    congr 1
    refine Finset.sum_congr rfl fun j hj => ?_
    rw [hfe j (Finset.mem_range.1 hj)]
  · rw [← hf0, ← hg0, Finset.sum_smul, Finset.sum_smul, ← Finset.sum_add_distrib]
    have := sum_zeroWeight_smul v params.k hk hv' fun m => (prf.E0 :: prf.E).getD m 0
    simp only [List.getD_cons_zero] at this
    rw [← this]
    refine Finset.sum_congr rfl fun j hj => ?_
    obtain ⟨_, _, _, _, h4⟩ := hshare j (Finset.mem_range.1 hj)
    rw [← h4, hfe j (Finset.mem_range.1 hj), hge j (Finset.mem_range.1 hj)]
    module

/-- **C49** (reconstruction): any `k` distinct shares of an honest dealer open the secret. -/
theorem C49_reconstruct (params : PedersenParams G) (hk : 0 < params.k) (w : F) (rand : Nat → F)
    (prf : PedersenProof F G) (hp : pedProve params w rand = some prf) (idx : List Int)
    (q : Quorum F params idx) : pedMessage params prf idx = some w := by
  obtain ⟨prf', hp', _, _, hv⟩ := C49_honest params w rand
  rw [hp] at hp'
  cases hp'
  rw [pedMessage_eq params prf hv idx q]
  rw [pedProve_eq] at hp
  cases hp
  let f : F[X] := ∑ m ∈ range params.k, C (if m = 0 then w else rand (2 * m - 1)) * X ^ m
  have hf : f.degree < (params.k : WithBot ℕ) := by
    refine lt_of_le_of_lt (degree_sum_le _ _) ?_
    rw [Finset.sup_lt_iff (by exact_mod_cast WithBot.bot_lt_coe _)]
    intro m hm
    exact lt_of_le_of_lt (degree_C_mul_X_pow_le _ _) (by exact_mod_cast Finset.mem_range.1 hm)
  have h0 := sum_zeroWeight_eval _ params.k q.injOn f hf
  have hfz : f.eval 0 = w := by
    simp only [f, eval_finsetSum, eval_mul, eval_C, eval_pow, eval_X]
    rw [Finset.sum_eq_single 0]
    · simp
    · intro b _ hb; simp [hb]
    · intro h; simp at h; omega
  refine congrArg some (Eq.trans ?_ (h0.trans hfz))
  refine Finset.sum_congr rfl fun j hj => ?_
  obtain ⟨i, _, hi', h1, h2⟩ := q.index j (Finset.mem_range.1 hj)
  congr 1
  simp only
  rw [hi', show ((i : Int)).toNat = i by omega, List.getD_eq_getElem _ _ (by simp; omega)]
  simp only [List.getElem_map, List.getElem_range', one_mul, f, eval_finsetSum, eval_mul, eval_C,
    eval_pow, eval_X, Int.cast_natCast]
  rw [show 1 + (i - 1) = i by omega, show params.k - 1 + 1 = params.k by omega]

/-- **C49** (too few): fewer than `k` indices are refused with the answer zero, whatever the proof. -/
theorem C49_too_few (params : PedersenParams G) (prf : PedersenProof F G) (idx : List Int)
    (h : idx.length < params.k) : pedMessage params prf idx = some 0 := by
  unfold pedMessage; rw [if_pos h]

/-- **C49** (bad shares): if the shares do not verify the answer is zero. -/
theorem C49_bad_shares (params : PedersenParams G) (prf : PedersenProof F G) (idx : List Int)
    (h : pedVerify params prf = some false) : pedMessage params prf idx = some 0 := by
  unfold pedMessage
  split_ifs
  · rfl
  · simp [h]

/-- **C49** (consistency): if no non-trivial relation holds between the commitment bases `g` and `h`,
all quorums open the same value of shares that verify, even if the dealer cheated. -/
theorem C49_consistent (params : PedersenParams G) (hk : 0 < params.k) (prf : PedersenProof F G)
    (hv : pedVerify params prf = some true) (idx idx' : List Int) (q : Quorum F params idx)
    (q' : Quorum F params idx')
    (hind : ∀ a b : F, a • params.g + b • params.h = 0 → a = 0 ∧ b = 0) :
    pedMessage params prf idx = pedMessage params prf idx' := by
  obtain ⟨f, g, _, _, _, h1, h2⟩ := C49_quorum_opens params hk prf hv idx q
  obtain ⟨f', g', _, _, _, h1', h2'⟩ := C49_quorum_opens params hk prf hv idx' q'
  have : (f.eval 0 - f'.eval 0) • params.g + (g.eval 0 - g'.eval 0) • params.h = 0 := by
    have := h2.symm.trans h2'
    rw [sub_smul, sub_smul]
    rw [← sub_eq_zero] at this
    rw [← this]
    abel
  rw [h1, h1', sub_eq_zero.1 (hind _ _ this).1]

/-- **C49** (secrecy): the public commitments and any `k - 1` shares are compatible with every other
secret: if `g` is a multiple of `h`, then for every secret `w'` there are random draws with which
the dealer publishes the same commitments and hands the same shares to these parties. -/
theorem C49_secrecy (params : PedersenParams G) (hk : 0 < params.k) (γ : F)
    (hγ : params.g = γ • params.h) (w w' : F) (rand : Nat → F) (parties : Finset Nat)
    (hc : parties.card < params.k) (hne : ∀ i ∈ parties, 1 ≤ i ∧ i ≤ params.n ∧ (i : F) ≠ 0) :
    ∃ rand' prf prf', pedProve params w rand = some prf ∧ pedProve params w' rand' = some prf' ∧
      prf.E0 = prf'.E0 ∧ prf.E = prf'.E ∧ ∀ i ∈ parties, prf.pk[i - 1]? = prf'.pk[i - 1]? := by
  let Q : F[X] := ∏ i ∈ parties, (1 - C ((i : F)⁻¹) * X)
  have hQ0 : Q.coeff 0 = 1 := by
    rw [coeff_zero_eq_eval_zero]
    simp [Q, eval_prod]
  have hQi : ∀ i ∈ parties, Q.eval (i : F) = 0 := by
    intro i hi
    simp only [Q, eval_prod]
    refine Finset.prod_eq_zero hi ?_
    simp [inv_mul_cancel₀ (hne i hi).2.2]
  have hQd : Q.natDegree < params.k := by
    refine lt_of_le_of_lt (natDegree_prod_le _ _) (lt_of_le_of_lt ?_ hc)
    refine le_trans (Finset.sum_le_sum fun i _ => ?_) (le_of_eq (Finset.card_eq_sum_ones _).symm)
    refine le_trans (natDegree_sub_le _ _) ?_
    simp only [natDegree_one, Nat.zero_le, sup_of_le_right]
    exact le_trans (natDegree_C_mul_le _ _) natDegree_X_le
  have hQe : ∀ x : F, Q.eval x = ∑ j ∈ range (params.k - 1 + 1), Q.coeff j * x ^ j := by
    intro x
    rw [show params.k - 1 + 1 = params.k by omega]
    exact eval_eq_sum_range' hQd x
  let rand' : Nat → F := fun m =>
    if m % 2 = 0 then rand m - γ * (w' - w) * Q.coeff (m / 2)
    else rand m + (w' - w) * Q.coeff ((m + 1) / 2)
  have he : ∀ j, rand' (2 * j) = rand (2 * j) - γ * (w' - w) * Q.coeff j := by
    intro j
    simp only [rand']
    rw [if_pos (by omega), show 2 * j / 2 = j by omega]
  have ho : ∀ j, 1 ≤ j → rand' (2 * j - 1) = rand (2 * j - 1) + (w' - w) * Q.coeff j := by
    intro j hj
    simp only [rand']
    rw [if_neg (by omega), show (2 * j - 1 + 1) / 2 = j by omega]
  refine ⟨rand', _, _, pedProve_eq params w rand, pedProve_eq params w' rand', ?_, ?_, ?_⟩
  · simp only
    have := he 0
    rw [Nat.mul_zero, hQ0, mul_one] at this
    rw [this, hγ]
    module
  · apply List.map_congr_left
    intro j hj
    rw [List.mem_range'_1] at hj
    rw [he, ho j hj.1, hγ]
    module
  · intro i hi
    obtain ⟨h1, h2, _⟩ := hne i hi
    simp only
    rw [List.getElem?_eq_getElem (by simp; omega), List.getElem?_eq_getElem (by simp; omega)]
    simp only [List.getElem_map, List.getElem_range', one_mul, Option.some.injEq, Prod.mk.injEq]
    rw [show 1 + (i - 1) = i by omega]
    have hz := (hQe (i : F)).symm.trans (hQi i hi)
    constructor
    · have : ∑ j ∈ range (params.k - 1 + 1), (if j = 0 then w' else rand' (2 * j - 1)) * (i : F) ^ j =
          ∑ j ∈ range (params.k - 1 + 1), (if j = 0 then w else rand (2 * j - 1)) * (i : F) ^ j +
            (w' - w) * ∑ j ∈ range (params.k - 1 + 1), Q.coeff j * (i : F) ^ j := by
        rw [Finset.mul_sum, ← Finset.sum_add_distrib]
        refine Finset.sum_congr rfl fun j _ => ?_
        by_cases hj : j = 0
        · subst hj; rw [if_pos rfl, if_pos rfl, hQ0]; ring
        · rw [if_neg hj, if_neg hj, ho j (by omega)]; ring
      rw [this, hz]; ring
    · have : ∑ j ∈ range (params.k - 1 + 1), rand' (2 * j) * (i : F) ^ j =
          ∑ j ∈ range (params.k - 1 + 1), rand (2 * j) * (i : F) ^ j -
            γ * (w' - w) * ∑ j ∈ range (params.k - 1 + 1), Q.coeff j * (i : F) ^ j := by
        rw [Finset.mul_sum, ← Finset.sum_sub_distrib]
        refine Finset.sum_congr rfl fun j _ => ?_
        rw [he]; ring
      rw [this, hz]; ring

/-- **C49** (limit): with threshold zero every call answers zero, whatever was shared. -/
theorem C49_threshold_zero (params : PedersenParams G) (hk : params.k = 0)
    (prf : PedersenProof F G) (hv : pedVerify params prf = some true) (idx : List Int) :
    pedMessage params prf idx = some 0 := by
  unfold pedMessage
  rw [if_neg (by omega), hv]
  simp [hk]

/-- Three of four parties, bases that satisfy no relation. -/
def exPedParams : PedersenParams (ℚ × ℚ) := ⟨4, 3, (1, 0), (0, 1)⟩

example : (∃ prf, pedProve exPedParams 7 (fun i => (i : ℚ) + 2) = some prf ∧
      pedVerify exPedParams prf = some true ∧ pedMessage exPedParams prf [4, 1, 3] = some 7 ∧
      pedMessage exPedParams prf [4, 1] = some 0) ∧
    Quorum ℚ exPedParams [4, 1, 3] ∧
    ∀ a b : ℚ, a • exPedParams.g + b • exPedParams.h = 0 → a = 0 ∧ b = 0 := by
  refine ⟨⟨(pedProve exPedParams 7 (fun i => (i : ℚ) + 2)).get (by decide +kernel), by simp,
    by decide +kernel, by decide +kernel, by decide +kernel⟩,
    ⟨by decide, by decide, by decide +kernel⟩, ?_⟩
  intro a b h
  simpa [exPedParams] using h

/-- One share altered: the shares no longer verify and the answer is zero. -/
example : pedMessage exPedParams (⟨(7, 2), [(3, 4), (5, 6)], [(15, 12), (33, 34), (61, 68), (0, 0)]⟩ :
    PedersenProof ℚ (ℚ × ℚ)) [1, 2, 3] = some 0 := by decide +kernel

end Crypto3Zk
