import Verif.Model.KZG
import Verif.Lemmas.PolyOps
import Verif.Lemmas.EvalStorage
import Verif.Lemmas.Groth16
import Mathlib.Data.List.Dedup
import Mathlib.Tactic.LinearCombination
import Mathlib.Tactic.Module

set_option linter.unusedSectionVars false

namespace Crypto3Zk

open Polynomial

variable {F : Type} [Field F]
variable {G1 G2 GT : Type} [AddCommGroup G1] [Module F G1] [AddCommGroup G2] [Module F G2]
  [AddCommGroup GT] [Module F GT]

section Keys

variable {G : Type} [AddCommGroup G] [Module F G]

@[simp] theorem length_powerKey (alpha : F) (g : G) (n : Nat) :
    (powerKey alpha g n).length = n := by
  induction n generalizing g with
  | zero => rfl
  | succ n ih => simp [powerKey, ih]

theorem powerKey_take_sum (alpha : F) (f : List F) : ∀ (g : G) (n : Nat), f.length ≤ n →
    (List.zipWith (fun g x => x • g) ((powerKey alpha g n).take f.length) f).sum
      = evalPoly f alpha • g := by
  induction f with
  | nil => intro g n _; simp
  | cons c f ih =>
    intro g n hn
    cases n with
    | zero => simp at hn
    | succ n =>
      have := ih (alpha • g) n (by simpa using hn)
      simp only [powerKey, List.length_cons, List.take_succ_cons, List.zipWith_cons_cons,
        List.sum_cons, this, evalPoly_cons]
      rw [smul_smul, ← add_smul]
      congr 1; ring

theorem kzgCommit_powerKey (alpha : F) (g : G) (n : Nat) (f : List F) (h : f.length ≤ n) :
    kzgCommit (powerKey alpha g n) f = some (evalPoly f alpha • g) := by
  unfold kzgCommit multiexp
  rw [if_pos (by simpa using h), if_pos (by simpa using h), powerKey_take_sum alpha f g n h]

theorem kzgCommit_none (ck : List G) (f : List F) (h : ck.length < f.length) :
    kzgCommit ck f = none := by
  unfold kzgCommit; rw [if_neg (by omega)]

theorem powerKey_get (alpha : F) (g : G) (n i : Nat) (h : i < n) :
    (powerKey alpha g n)[i]? = some (alpha ^ i • g) := by
  induction n generalizing g i with
  | zero => omega
  | succ n ih =>
    cases i with
    | zero => simp [powerKey]
    | succ i =>
      simp only [powerKey, List.getElem?_cons_succ, ih (alpha • g) i (by omega), smul_smul]
      rw [pow_succ]

end Keys

/-! ## sorted sets -/

section Sets

variable [LinearOrder F]

theorem sorted_mergeSort (l : List F) : (l.mergeSort (· ≤ ·)).Pairwise (· ≤ ·) := by
  have := List.pairwise_mergeSort (le := fun a b : F => decide (a ≤ b))
    (by simp only [decide_eq_true_eq]; exact fun a b c h1 h2 => le_trans h1 h2)
    (by simp only [Bool.or_eq_true, decide_eq_true_eq]; exact fun a b => le_total a b) l
  simpa using this

theorem mem_sortedSet (l : List F) (x : F) : x ∈ sortedSet l ↔ x ∈ l := by
  simp [sortedSet, List.mem_dedup]

theorem nodup_sortedSet (l : List F) : (sortedSet l).Nodup := List.nodup_dedup _

theorem setDifference_eq (T S : List F) (hT : T.Pairwise (· < ·)) (hS : S.Pairwise (· ≤ ·)) :
    setDifference T S = T.filter fun x => x ∉ S := by
  fun_induction setDifference T S with
  | case1 S => simp
  | case2 T h => simp
  | case3 a T b S h ih =>
    rw [List.pairwise_cons] at hT
    rw [List.filter_cons, ih hT.2 hS]
    have : a ∉ b :: S := by
      intro hm
      rcases List.mem_cons.1 hm with rfl | hm
      · exact lt_irrefl _ h
      · exact absurd ((List.pairwise_cons.1 hS).1 a hm) (not_le.2 h)
    simp [this]
  | case4 a T b S h1 h2 ih =>
    rw [ih hT (List.pairwise_cons.1 hS).2]
    apply List.filter_congr
    intro x hx
    have : x ≠ b := by
      rintro rfl
      rcases List.mem_cons.1 hx with rfl | hx
      · exact lt_irrefl _ h2
      · exact lt_asymm h2 ((List.pairwise_cons.1 hT).1 x hx)
    simp [this]
  | case5 a T b S h1 h2 ih =>
    have hab : a = b := le_antisymm (not_lt.1 h2) (not_lt.1 h1)
    subst hab
    rw [List.pairwise_cons] at hT
    rw [ih hT.2 (List.pairwise_cons.1 hS).2, List.filter_cons]
    simp only [List.mem_cons, true_or, not_true_eq_false, decide_false, Bool.false_eq_true,
      if_false]
    apply List.filter_congr
    intro x hx
    have : x ≠ a := fun h => by subst h; exact lt_irrefl _ (hT.1 x hx)
    simp [this]

theorem strict_mergeSort (T : List F) (h : T.Nodup) : (T.mergeSort (· ≤ ·)).Pairwise (· < ·) := by
  have h1 := sorted_mergeSort T
  have h2 : (T.mergeSort (· ≤ ·)).Nodup := (List.mergeSort_perm T _).nodup_iff.2 h
  exact (h1.and h2).imp fun h => lt_of_le_of_ne h.1 h.2

/-- the points of `T` that are not in `S`, in some order -/
theorem setDifference_perm (T S : List F) (h : T.Nodup) :
    (setDifference (T.mergeSort (· ≤ ·)) (S.mergeSort (· ≤ ·))).Perm
      (T.filter fun x => x ∉ S) := by
  rw [setDifference_eq _ _ (strict_mergeSort T h) (sorted_mergeSort S)]
  refine ((List.mergeSort_perm T _).filter _).trans ?_
  rw [List.filter_congr]
  intro x _
  simp

theorem vanish_split (T S : List F) (hT : T.Nodup) (hS : S.Nodup) (hsub : ∀ x ∈ S, x ∈ T) :
    vanish T = vanish S * vanish (T.filter fun x => x ∉ S) := by
  have hp : T.Perm (S ++ T.filter fun x => x ∉ S) := by
    refine (List.perm_ext_iff_of_nodup hT ?_).2 ?_
    · refine List.nodup_append.2 ⟨hS, hT.filter _, ?_⟩
      intro a ha b hb
      rintro rfl
      simp [ha] at hb
    · intro x
      by_cases hx : x ∈ S
      · simp [hx, hsub x hx]
      · simp [hx]
  rw [vanish_perm hp]
  simp [vanish]

theorem polynomByZeros_spec (l : List F) (h : l ≠ []) : ∃ v, polynomByZeros l = some v ∧
    toPoly v = vanish l ∧ v.length = l.length + 1 ∧ v.getLastD 0 = 1 := by
  cases l with
  | nil => exact absurd rfl h
  | cons s S =>
    obtain ⟨h1, h2⟩ := getV_foldl S [-s, 1] (by simp)
    have h1' : toPoly (S.foldl (fun v x => polyMul v [-x, 1]) [-s, 1]) = vanish (s :: S) := by
      rw [h1, toPoly_lin]; simp [vanish]
    have h2' : (S.foldl (fun v x => polyMul v [-x, 1]) [-s, 1]).length = (s :: S).length + 1 := by
      rw [h2]; simp; omega
    refine ⟨_, rfl, h1', h2', ?_⟩
    apply getLastD_of_monic
    · rw [h1']; exact (vanish_monic _).1
    · rw [h1', h2', (vanish_monic _).2]; rfl

theorem setDifferencePolynom_spec (T S : List F) (hT : T.Nodup) :
    ∃ v, setDifferencePolynom T S = some v ∧ toPoly v = vanish (T.filter fun x => x ∉ S) ∧
      v.length ≤ T.length + 1 := by
  have hp := setDifference_perm T S hT
  unfold setDifferencePolynom
  have hle : (T.filter fun x => x ∉ S).length ≤ T.length := List.length_filter_le _ _
  cases hr : setDifference (T.mergeSort (· ≤ ·)) (S.mergeSort (· ≤ ·)) with
  | nil =>
    refine ⟨[1], rfl, ?_, by simp⟩
    rw [hr] at hp
    rw [List.nil_perm.1 hp]
    simp [vanish, toPoly_cons, toPoly_nil]
  | cons a l =>
    obtain ⟨v, h1, h2, h3, -⟩ := polynomByZeros_spec (a :: l) (by simp)
    rw [hr] at hp
    refine ⟨v, h1, ?_, ?_⟩
    · rw [h2, vanish_perm hp]
    · rw [h3, hp.length_eq]; omega

theorem schemeSetDifference_spec (T S : List F) (hT : T.Nodup) (hS : S.Nodup)
    (hsub : ∀ x ∈ S, x ∈ T) :
    ∃ v, schemeSetDifference T S = some v ∧ toPoly v = vanish (T.filter fun x => x ∉ S) ∧
      v ≠ [] ∧ v.length + S.length ≤ T.length + 1 := by
  have hp := setDifference_perm T S hT
  have hlen : S.length + (T.filter fun x => x ∉ S).length = T.length := by
    have := congrArg natDegree (vanish_split T S hT hS hsub)
    rw [(vanish_monic S).1.natDegree_mul (vanish_monic _).1, (vanish_monic _).2,
      (vanish_monic _).2, (vanish_monic _).2] at this
    exact this.symm
  unfold schemeSetDifference
  simp only []
  split_ifs with h0 h1
  · refine ⟨[1], rfl, ?_, by simp, ?_⟩
    · rw [List.length_eq_zero_iff] at h0
      rw [h0] at hp
      rw [List.nil_perm.1 hp]
      simp [vanish, toPoly_cons, toPoly_nil]
    · simp; omega
  · refine ⟨_, rfl, ?_, ?_, ?_⟩
    · rw [toPoly_getV, vanish_perm hp]
    · intro h; have := length_getV (setDifference (T.mergeSort (· ≤ ·)) (S.mergeSort (· ≤ ·)))
      rw [h] at this; simp at this
    · rw [length_getV, hp.length_eq]; omega
  · exfalso
    apply h1
    rw [polyIsZero_iff, toPoly_polySub, toPoly_polyMul, toPoly_getV, toPoly_getV, toPoly_getV,
      vanish_perm hp, vanish_perm (List.mergeSort_perm S _), vanish_perm (List.mergeSort_perm T _),
      vanish_split T S hT hS hsub]
    ring

end Sets

theorem evalPoly_polySub (a b : List F) (x : F) :
    evalPoly (polySub a b) x = evalPoly a x - evalPoly b x := by
  rw [← eval_toPoly, toPoly_polySub, eval_sub, eval_toPoly, eval_toPoly]

/-- the interpolated polynomial agrees with the polynomial on the points, so its difference is
divisible by the vanishing polynomial -/
theorem vanish_dvd_sub_interp (f : List F) (S : List F) (hS : S.Nodup) :
    vanish S ∣ toPoly f - toPoly (lagrangeInterpolation (S.map fun x => (x, evalPoly f x))) := by
  apply vanish_dvd S hS
  intro x hx
  rw [eval_sub, eval_toPoly, eval_toPoly,
    interpolation_eval _ (by simpa [List.map_map, Function.comp_def] using hS) x (evalPoly f x)
      (List.mem_map.2 ⟨x, hx, rfl⟩), sub_self]

/-- the combination `Σ γ^i (F_i − U_i) Z_{T∖S_i}` that prover and verifier agree on -/
noncomputable def combo [DecidableEq F] (T : List F) (gamma : F) :
    F → List (List F × List F × List F) → F[X]
  | _, [] => 0
  | c, e :: es => C c * (toPoly e.1 - toPoly e.2.1) * vanish (T.filter fun x => x ∉ e.2.2)
      + combo T gamma (c * gamma) es

/-- an item of the prover: its points are distinct points of `T`, and the interpolated polynomial
agrees with the polynomial on them -/
structure ItemOK (T : List F) (d : Nat) (e : List F × List F × List F) : Prop where
  nodup : e.2.2.Nodup
  sub : ∀ x ∈ e.2.2, x ∈ T
  dvd : vanish e.2.2 ∣ toPoly e.1 - toPoly e.2.1
  len : e.1.length ≤ d
  ulen : e.2.1.length ≤ e.2.2.length
  plen : e.2.2.length ≤ d

theorem mul_divByMonic_of_dvd {p q : F[X]} (hq : q.Monic) (h : q ∣ p) : q * (p /ₘ q) = p := by
  have := modByMonic_add_div p q
  rw [(modByMonic_eq_zero_iff_dvd hq).2 h, zero_add] at this
  exact this

section Items

variable [LinearOrder F]

theorem kzgProver_fold (T : List F) (hT : T.Nodup) (d : Nat) (gamma : F)
    (items : List (List F × List F × List F)) (h : ∀ e ∈ items, ItemOK T d e) :
    ∀ (st : F × List F), st.2.length ≤ d →
    toPoly (items.foldl (kzgProverStep gamma) st).2 * vanish T
        = toPoly st.2 * vanish T + combo T gamma st.1 items ∧
      (items.foldl (kzgProverStep gamma) st).2.length ≤ d := by
  induction items with
  | nil => intro st hst; simp [combo, hst]
  | cons e items ih =>
    intro st hst
    have he := h e (by simp)
    obtain ⟨h1, h2⟩ := ih (fun e' he' => h e' (by simp [he'])) (kzgProverStep gamma st e) (by
      simp only [kzgProverStep, length_polyAdd, length_polyDiv, length_polyScale, length_polySub,
        length_getV]
      have := he.len; have := he.ulen; have := he.plen
      omega)
    refine ⟨?_, h2⟩
    rw [List.foldl_cons, h1]
    simp only [kzgProverStep, combo, toPoly_polyAdd]
    rw [(toPoly_divMod _ _ (getV_last _)).1, toPoly_polyScale, toPoly_polySub, toPoly_getV]
    have hd : vanish e.2.2 ∣ C st.1 * (toPoly e.1 - toPoly e.2.1) := he.dvd.mul_left _
    have hdiv := mul_divByMonic_of_dvd (vanish_monic e.2.2).1 hd
    rw [add_mul]
    conv_lhs => rw [vanish_split T e.2.2 hT he.nodup he.sub]
    rw [vanish_split T e.2.2 hT he.nodup he.sub]
    linear_combination (vanish (T.filter fun x => x ∉ e.2.2)) * hdiv

theorem kzgVerifier_fold (P : Pairing F G1 G2 GT) (T : List F) (hT : T.Nodup) (d t : Nat)
    (alpha gamma : F) (ht : T.length ≤ t)
    (items : List (List F × List F × List F)) (h : ∀ e ∈ items, ItemOK T d e) :
    ∀ (st : F × GT),
    ∃ c', (items.map fun e => ((evalPoly e.1 alpha • P.one1, e.2.1, e.2.2) : G1 × _)).foldlM
        (kzgVerifierStep P (batchedKzgSetup P d t alpha) T gamma) st
      = some (c', st.2 + (combo T gamma st.1 items).eval alpha • P.e P.one1 P.one2) := by
  induction items with
  | nil => intro st; exact ⟨st.1, by simp [combo]⟩
  | cons e items ih =>
    intro st
    have he := h e (by simp)
    obtain ⟨v, h1, h2, h3, h4⟩ := schemeSetDifference_spec T e.2.2 hT he.nodup he.sub
    have hu : e.2.1.length ≤ d := he.ulen.trans he.plen
    have hstep : kzgVerifierStep P (batchedKzgSetup P d t alpha) T gamma st
        (evalPoly e.1 alpha • P.one1, e.2.1, e.2.2)
        = some (st.1 * gamma, st.2 + P.e (st.1 • (evalPoly e.1 alpha • P.one1
            - evalPoly e.2.1 alpha • P.one1)) (evalPoly v alpha • P.one2)) := by
      simp only [kzgVerifierStep, batchedKzgSetup, kzgCommit_powerKey alpha P.one1 d _ hu,
        Option.bind_eq_bind, Option.bind_some, h1,
        kzgCommit_powerKey alpha P.one2 (t + 1) v (by omega)]
    obtain ⟨c', hc⟩ := ih (fun e' he' => h e' (by simp [he'])) (st.1 * gamma,
      st.2 + P.e (st.1 • (evalPoly e.1 alpha • P.one1 - evalPoly e.2.1 alpha • P.one1))
        (evalPoly v alpha • P.one2))
    refine ⟨c', ?_⟩
    rw [List.map_cons, List.foldlM_cons, hstep]
    simp only [Option.bind_eq_bind, Option.bind_some]
    rw [hc]
    congr 2
    rw [← sub_smul, smul_smul, pair_smul, add_assoc, ← add_smul]
    congr 2
    simp only [combo, eval_add, eval_mul, eval_C, eval_sub, eval_toPoly, ← h2]

/-! ### the second version -/

theorem length_polyMul_le (a b : List F) (hb : b ≠ []) :
    (polyMul a b).length + 1 ≤ a.length + b.length := by
  have hb' : 0 < b.length := List.length_pos_iff.2 hb
  by_cases ha : a = []
  · subst ha; simp [polyMul]; omega
  · exact (length_polyMul a b ha hb).le

theorem kzg2F_fold (T : List F) (hT : T.Nodup) (d : Nat) (theta : F)
    (items : List (List F × List F × List F)) (h : ∀ e ∈ items, ItemOK T d e) :
    ∀ (st : F × List F), st.2.length ≤ d + T.length →
    ∃ st', items.foldlM (kzg2FStep T theta) st = some st' ∧
      toPoly st'.2 = toPoly st.2 + combo T theta st.1 items ∧ st'.2.length ≤ d + T.length := by
  induction items with
  | nil => intro st hst; exact ⟨st, rfl, by simp [combo], hst⟩
  | cons e items ih =>
    intro st hst
    have he := h e (by simp)
    obtain ⟨v, h1, h2, h3, h4⟩ := schemeSetDifference_spec T e.2.2 hT he.nodup he.sub
    have hstep : kzg2FStep T theta st e = some (st.1 * theta,
        polyAdd st.2 (polyMul (polyScale st.1 (polySub e.1 e.2.1)) v)) := by
      simp only [kzg2FStep, h1, Option.bind_eq_bind, Option.bind_some]
    obtain ⟨st', h5, h6, h7⟩ := ih (fun e' he' => h e' (by simp [he']))
      (st.1 * theta, polyAdd st.2 (polyMul (polyScale st.1 (polySub e.1 e.2.1)) v)) (by
        have hm := length_polyMul_le (polyScale st.1 (polySub e.1 e.2.1)) v h3
        rw [length_polyScale, length_polySub] at hm
        rw [length_polyAdd]
        have := he.len; have := he.ulen; have := he.plen
        omega)
    refine ⟨st', ?_, ?_, h7⟩
    · rw [List.foldlM_cons, hstep]; exact h5
    · rw [h6]
      simp only [combo, toPoly_polyAdd, toPoly_polyMul, toPoly_polyScale, toPoly_polySub, h2]
      ring

/-- the linearised combination at `theta2` -/
noncomputable def comboL (T : List F) (theta theta2 : F) :
    F → List (List F × List F × List F) → F[X]
  | _, [] => 0
  | c, e :: es =>
    C (c * (vanish (T.filter fun x => x ∉ e.2.2)).eval theta2)
        * (toPoly e.1 - C (evalPoly e.2.1 theta2))
      + comboL T theta theta2 (c * theta) es

theorem comboL_eval (T : List F) (theta theta2 : F) (items : List (List F × List F × List F)) :
    ∀ c, (comboL T theta theta2 c items).eval theta2 = (combo T theta c items).eval theta2 := by
  induction items with
  | nil => intro c; simp [combo, comboL]
  | cons e items ih =>
    intro c
    simp only [combo, comboL, eval_add, eval_mul, eval_C, eval_sub, eval_toPoly, ih]
    ring

theorem kzg2L_fold (T : List F) (hT : T.Nodup) (d : Nat) (hd : 0 < d) (theta theta2 : F)
    (items : List (List F × List F × List F)) (h : ∀ e ∈ items, ItemOK T d e) :
    ∀ (st : F × List F), st.2.length ≤ d →
    ∃ st', items.foldlM (kzg2LStep T theta theta2) st = some st' ∧
      toPoly st'.2 = toPoly st.2 + comboL T theta theta2 st.1 items ∧ st'.2.length ≤ d := by
  induction items with
  | nil => intro st hst; exact ⟨st, rfl, by simp [comboL], hst⟩
  | cons e items ih =>
    intro st hst
    have he := h e (by simp)
    obtain ⟨v, h1, h2, h3, h4⟩ := schemeSetDifference_spec T e.2.2 hT he.nodup he.sub
    have hstep : kzg2LStep T theta theta2 st e = some (st.1 * theta,
        polyAdd st.2 (polyScale (st.1 * evalPoly v theta2)
          (polySub e.1 [evalPoly e.2.1 theta2]))) := by
      simp only [kzg2LStep, h1, Option.bind_eq_bind, Option.bind_some]
    obtain ⟨st', h5, h6, h7⟩ := ih (fun e' he' => h e' (by simp [he'])) (st.1 * theta,
        polyAdd st.2 (polyScale (st.1 * evalPoly v theta2)
          (polySub e.1 [evalPoly e.2.1 theta2]))) (by
        rw [length_polyAdd, length_polyScale, length_polySub]
        have := he.len
        simp only [List.length_singleton]
        omega)
    refine ⟨st', ?_, ?_, h7⟩
    · rw [List.foldlM_cons, hstep]; exact h5
    · rw [h6]
      simp only [comboL, toPoly_polyAdd, toPoly_polyScale, toPoly_polySub, ← h2, eval_toPoly]
      have : toPoly [evalPoly e.2.1 theta2] = C (evalPoly e.2.1 theta2) := by
        simp [toPoly_cons, toPoly_nil]
      rw [this]; ring

theorem kzg2Verifier_fold (g : G1) (T : List F) (hT : T.Nodup) (d : Nat) (alpha theta theta2 : F)
    (items : List (List F × List F × List F)) (h : ∀ e ∈ items, ItemOK T d e) :
    ∀ (st : F × G1 × F),
    ∃ st' : F × G1 × F,
      (items.map fun e => ((evalPoly e.1 alpha • g, e.2.1, e.2.2) : G1 × _)).foldlM
        (kzg2VerifierStep T theta theta2) st = some st' ∧
      st'.2.1 - st'.2.2 • g
        = st.2.1 - st.2.2 • g + (comboL T theta theta2 st.1 items).eval alpha • g := by
  induction items with
  | nil => intro st; exact ⟨st, rfl, by simp [comboL]⟩
  | cons e items ih =>
    intro st
    have he := h e (by simp)
    obtain ⟨v, h1, h2, h3, h4⟩ := schemeSetDifference_spec T e.2.2 hT he.nodup he.sub
    have hstep : kzg2VerifierStep T theta theta2 st (evalPoly e.1 alpha • g, e.2.1, e.2.2)
        = some (st.1 * theta,
          st.2.1 + (st.1 * evalPoly v theta2) • (evalPoly e.1 alpha • g),
          st.2.2 + st.1 * evalPoly v theta2 * evalPoly e.2.1 theta2) := by
      simp only [kzg2VerifierStep, h1, Option.bind_eq_bind, Option.bind_some]
    obtain ⟨st', h5, h6⟩ := ih (fun e' he' => h e' (by simp [he'])) (st.1 * theta,
          st.2.1 + (st.1 * evalPoly v theta2) • (evalPoly e.1 alpha • g),
          st.2.2 + st.1 * evalPoly v theta2 * evalPoly e.2.1 theta2)
    refine ⟨st', ?_, ?_⟩
    · rw [List.map_cons, List.foldlM_cons, hstep]; exact h5
    · rw [h6]
      simp only [comboL, eval_add, eval_mul, eval_C, eval_sub, eval_toPoly, ← h2]
      module

end Items

end Crypto3Zk
