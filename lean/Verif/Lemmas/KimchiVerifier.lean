import Verif.Spec.KimchiVerifier
import Verif.Props.KimchiCommitment
import Verif.Props.KimchiPedersen
import Verif.Props.KimchiExpr
import Verif.Props.Alphas
import Mathlib.Algebra.BigOperators.Fin
import Mathlib.Tactic.Ring
import Mathlib.Tactic.FieldSimp
import Mathlib.Tactic.LinearCombination
import Mathlib.Tactic.Module

/-!
# Lemmas about the Kimchi verifier
-/

set_option linter.unusedSectionVars false

namespace Crypto3Zk

open Finset

variable {F : Type} [Field F] [DecidableEq F] {G : Type} [AddCommGroup G] [Module F G] [DecidableEq G]
variable {S R : Type}

theorem foldl_mul_finRange {n : Nat} (f : Fin n → F) (a : F) :
    (List.finRange n).foldl (fun r i => r * f i) a = a * ∏ i, f i := by
  have h : ∀ (l : List (Fin n)) (a : F), l.foldl (fun r i => r * f i) a = a * (l.map f).prod := by
    intro l
    induction l with
    | nil => intro a; simp
    | cons x l ih => intro a; rw [List.foldl_cons, ih, List.map_cons, List.prod_cons, mul_assoc]
  rw [h, ← List.ofFn_eq_map, List.prod_ofFn]

theorem foldl_finRange_ofFn {n : Nat} {A B : Type} (f : Fin n → A) (g : B → A → B) (b : B) :
    (List.finRange n).foldl (fun s i => g s (f i)) b = (List.ofFn f).foldl g b := by
  rw [List.ofFn_eq_map, List.foldl_map]

theorem polyVal_eq (p : List F) (x : F) : polyVal p x = hornerEval p x :=
  (hornerEval_sum p p.length x le_rfl).symm

/-- the values of the chunks combine to the value of the polynomial -/
theorem horner_chunkValues (n : Nat) (hn : 0 < n) (q : IpaPoly F) (x : F) :
    hornerEval (chunkValues n q x) (x ^ n) = polyVal q.coeffs x := by
  have key : ∀ (m : Nat) (p : List F), p.length ≤ m * n →
      hornerEval ((List.range m).map fun j => hornerEval ((p.drop (j * n)).take n) x) (x ^ n) = hornerEval p x := by
    intro m
    induction m with
    | zero =>
      intro p hp
      have : p = [] := List.length_eq_zero_iff.mp (by omega)
      simp [this, hornerEval]
    | succ m ih =>
      intro p hp
      rw [List.range_succ_eq_map, List.map_cons, List.map_map]
      have h1 : hornerEval (hornerEval ((p.drop (0 * n)).take n) x ::
          (List.range m).map ((fun j => hornerEval ((p.drop (j * n)).take n) x) ∘ Nat.succ)) (x ^ n) =
          hornerEval (p.take n) x + x ^ n * hornerEval ((List.range m).map fun j =>
            hornerEval (((p.drop n).drop (j * n)).take n) x) (x ^ n) := by
        have : ((fun j => hornerEval ((p.drop (j * n)).take n) x) ∘ Nat.succ) =
            fun j => hornerEval (((p.drop n).drop (j * n)).take n) x := by
          funext j
          simp only [Function.comp_apply, List.drop_drop]
          rw [show n + j * n = j.succ * n by rw [Nat.succ_mul]; omega]
        rw [this, zero_mul, List.drop_zero]
        rfl
      rw [h1, ih (p.drop n) (by rw [List.length_drop, Nat.succ_mul] at *; omega)]
      by_cases hl : n ≤ p.length
      · conv_rhs => rw [← List.take_append_drop n p, horner_append, List.length_take, min_eq_left hl]
      · rw [List.take_of_length_le (by omega), List.drop_eq_nil_of_le (by omega)]
        simp [hornerEval]
  rw [chunkValues, polyVal_eq]
  simp only [chunkEval_eq]
  exact key _ _ (chunkCount_bounds n _ hn).1

/-! ## Commitments -/

theorem ipaCommit_unbounded (prm : IpaParams G) (p : List F) (ws : Nat → F) (w : F)
    (hn : 0 < prm.g.length) :
    ipaCommit prm p (-1) ws w =
      some (⟨(List.range (chunkCount prm.g.length p.length)).map fun j =>
        lin ((p.drop (j * prm.g.length)).take prm.g.length) prm.g + ws j • prm.h, 0⟩,
        ⟨(List.range (chunkCount prm.g.length p.length)).map ws, 0⟩) := by
  rw [ipaCommit]
  simp only [Option.bind_eq_bind, if_neg (show ¬ (0 : Int) ≤ -1 by decide)]
  rw [guard, if_pos (Or.inl hn), ipaChunks_eq _ _ (Or.inl hn), mapM_eq_some_map _ (fun c => lin c prm.g) _ (by
    intro c hc
    obtain ⟨j, hj, rfl⟩ := List.mem_map.mp hc
    rw [multiexp_lin _ _ (by simp), lin_right_take])]
  simp only [Option.pure_def, Option.bind_some, List.length_map, List.length_range, ne_eq, not_true,
    if_false, Option.some.injEq, Prod.mk.injEq, PolyComm.mk.injEq, and_true]
  apply List.ext_getElem
  · simp
  · intro i h1 h2
    simp

theorem Committed.honest {prm : IpaParams G} {c : PolyComm G} {q : IpaPoly F} (h : Committed prm c q)
    (points : List F) :
    HonestClaim prm points ⟨c, points.map (chunkValues prm.g.length q), -1⟩ q where
  commit := h.1
  bound := by rw [h.2.1]; rfl
  evaluations := rfl
  bounded := Or.inl ⟨show (-1 : Int) < 0 by decide, by
    have : sizeOfInt (-1) = 2 ^ 64 - 1 := rfl
    rw [this]
    exact h.2.2⟩

theorem powSum_range (x : F) {M : Type} [AddCommGroup M] [Module F M] (m : Nat) (f : Nat → M) :
    powSum x ((List.range m).map f) = ∑ j ∈ range m, x ^ j • f j := by
  induction m generalizing f with
  | zero => rfl
  | succ m ih =>
    rw [List.range_succ_eq_map, List.map_cons, List.map_map, powSum, ih, Finset.sum_range_succ', Finset.smul_sum,
      add_comm]
    simp only [Function.comp_apply, Nat.succ_eq_add_one, pow_zero, one_smul, smul_smul, pow_succ']

theorem lin_sum_left {ι : Type} (s : Finset ι) (n : Nat) (f : ι → Nat → F) (g : List G) :
    lin ((List.range n).map fun i => ∑ j ∈ s, f j i) g = ∑ j ∈ s, lin ((List.range n).map (f j)) g := by
  classical
  induction s using Finset.induction_on with
  | empty =>
    simp only [Finset.sum_empty]
    have : ∀ (m : Nat) (g : List G), lin ((List.range m).map fun _ => (0 : F)) g = 0 := by
      intro m
      induction m with
      | zero => intro g; cases g <;> rfl
      | succ m ih =>
        intro g
        rw [List.range_succ_eq_map, List.map_cons, List.map_map]
        cases g with
        | nil => rfl
        | cons x g =>
          rw [lin, zero_smul, zero_add]
          exact ih g
    exact this n g
  | insert a s ha ih =>
    simp only [Finset.sum_insert ha]
    rw [← ih]
    have : (List.range n).map (fun i => f a i + ∑ j ∈ s, f j i) =
        List.zipWith (· + ·) ((List.range n).map (f a)) ((List.range n).map fun i => ∑ j ∈ s, f j i) := by
      apply List.ext_getElem <;> simp
    rw [this, lin_add_left _ _ _ (by simp)]

theorem lin_scale_left (n : Nat) (x : F) (f : Nat → F) (g : List G) :
    lin ((List.range n).map fun i => x * f i) g = x • lin ((List.range n).map f) g := by
  have : ∀ (a : List F) (g : List G), lin (a.map fun y => x * y) g = x • lin a g := by
    intro a
    induction a with
    | nil => intro g; cases g <;> simp [lin]
    | cons y a ih =>
      intro g
      cases g with
      | nil => simp [lin]
      | cons z g => rw [List.map_cons, lin, lin, ih, mul_smul, smul_add]
  rw [← this, List.map_map]
  rfl

/-- reading a list with zeros after its end does not change the linear combination -/
theorem lin_range_getD (a : List F) (g : List G) (n : Nat) (h : a.length ≤ n) :
    lin ((List.range n).map fun i => a.getD i 0) g = lin a g := by
  induction a generalizing g n with
  | nil =>
    have := lin_scale_left n (0 : F) (fun _ => 0) g
    simp only [mul_zero, zero_smul] at this
    simpa using this
  | cons x a ih =>
    obtain ⟨n, rfl⟩ : ∃ m, n = m + 1 := ⟨n - 1, by simp at h; omega⟩
    rw [List.range_succ_eq_map, List.map_cons, List.map_map]
    cases g with
    | nil => rfl
    | cons y g =>
      rw [lin, lin, List.getD_cons_zero]
      congr 1
      exact ih g n (by simpa using h)

/-- the chunks of a commitment, combined, are the commitment to the combined chunks -/
theorem Committed.fold {prm : IpaParams G} {c : PolyComm G} {q : IpaPoly F} (h : Committed prm c q)
    (hn : 0 < prm.g.length) (x : F) :
    powSum x c.unshifted = lin (foldCoeffs prm.g.length x q.coeffs) prm.g +
      powSum x q.commit.unshifted • prm.h ∧ c.shifted = 0 ∧
      c.unshifted.length = chunkCount prm.g.length q.coeffs.length := by
  obtain ⟨⟨ws, w, hc⟩, -⟩ := h
  rw [ipaCommit_unbounded _ _ _ _ hn] at hc
  obtain ⟨h1, h2⟩ := Prod.mk.inj (Option.some.inj hc)
  rw [← h1, ← h2]
  refine ⟨?_, rfl, by simp⟩
  dsimp only
  rw [powSum_range, powSum_range, foldCoeffs, lin_sum_left, Finset.sum_smul, ← Finset.sum_add_distrib]
  apply Finset.sum_congr rfl
  intro j _
  rw [lin_scale_left, smul_add, smul_smul, smul_eq_mul]
  congr 2
  rw [← lin_range_getD _ prm.g prm.g.length (List.length_take_le _ _)]
  congr 1
  apply List.map_congr_left
  intro i hi
  have hi' := List.mem_range.mp hi
  simp only [List.getD_eq_getElem?_getD, List.getElem?_take, hi', if_true, List.getElem?_drop]

theorem chunkCommitment_powSum (c : PolyComm G) (x : F) :
    (c.chunkCommitment x).unshifted = [powSum x c.unshifted] := by
  have h : ∀ l : List G, l.foldr (fun v r => x • r + v) 0 = powSum x l := by
    intro l
    induction l with
    | nil => rfl
    | cons v l ih => rw [List.foldr_cons, ih, powSum, add_comm]
  rw [PolyComm.chunkCommitment, List.foldl_reverse]
  exact congrArg (fun v => [v]) (h _)

/-- the value of the combined chunks -/
theorem polyVal_fold (n : Nat) (hn : 0 < n) (q : List F) (x : F) :
    polyVal (foldCoeffs n (x ^ n) q) x = polyVal q x := by
  have h := horner_chunkValues n hn ⟨q, 0, ⟨[], 0⟩⟩ x
  rw [← h, horner_powSum, chunkValues, powSum_range]
  rw [polyVal, foldCoeffs, List.length_map, List.length_range]
  simp only [chunkEval, smul_eq_mul, Finset.mul_sum]
  rw [Finset.sum_comm]
  apply Finset.sum_congr rfl
  intro i hi
  have hi' := Finset.mem_range.mp hi
  rw [List.getD_eq_getElem _ _ (by simpa using hi'), List.getElem_map, List.getElem_range, Finset.sum_mul]
  apply Finset.sum_congr rfl
  intro j _
  ring

theorem lin_sum_right {ι A : Type} (s : Finset ι) (elm : List F) (cs : List A) (f : ι → A → G) :
    lin elm (cs.map fun c => ∑ j ∈ s, f j c) = ∑ j ∈ s, lin elm (cs.map (f j)) := by
  induction elm generalizing cs with
  | nil => simp [lin]
  | cons x elm ih => cases cs with
    | nil => simp [lin]
    | cons c cs => simp only [List.map_cons, lin, ih, Finset.smul_sum, Finset.sum_add_distrib]

theorem lin_smul_right {A : Type} (x : F) (elm : List F) (cs : List A) (f : A → G) :
    lin elm (cs.map fun c => x • f c) = x • lin elm (cs.map f) := by
  induction elm generalizing cs with
  | nil => simp [lin]
  | cons y elm ih => cases cs with
    | nil => simp [lin]
    | cons c cs => simp only [List.map_cons, lin, ih, smul_add, smul_smul, mul_comm]

theorem lin_map_zero_right {A : Type} (elm : List F) (cs : List A) (f : A → G) (h : ∀ c ∈ cs, f c = 0) :
    lin elm (cs.map f) = 0 := by
  induction elm generalizing cs with
  | nil => simp [lin]
  | cons y elm ih => cases cs with
    | nil => simp [lin]
    | cons c cs =>
      rw [List.map_cons, lin, h c (by simp), smul_zero, zero_add]
      exact ih cs fun d hd => h d (List.mem_cons_of_mem _ hd)

/-- `multi_scalar_mul` of commitments with the same number of chunks -/
theorem multiScalarMul_fold (c : PolyComm G) (cs : List (PolyComm G)) (elm : List F) (k : Nat) (x : F)
    (hl : (c :: cs).length = elm.length) (hk : ∀ d ∈ c :: cs, d.unshifted.length = k)
    (hs : ∀ d ∈ c :: cs, d.shifted = 0) :
    ∃ f, multiScalarMul (c :: cs) elm = some f ∧ f.shifted = 0 ∧
      powSum x f.unshifted = lin elm ((c :: cs).map fun d => powSum x d.unshifted) := by
  obtain ⟨f, h1, h2, -, ⟨d, hd, h3⟩, h4⟩ := C77_multi_scalar_mul c cs elm hl
  rw [hk d hd] at h3
  refine ⟨f, h1, by rw [h2]; exact lin_map_zero_right _ _ _ hs, ?_⟩
  have e : ∀ l : List G, l.length = k → l = (List.range k).map fun i => l.getD i 0 := by
    intro l hl
    apply List.ext_getElem
    · simp [hl]
    · intro i h1 h2
      simp [h1]
  have e2 : ∀ l : List G, l.length = k → powSum x l = ∑ j ∈ range k, x ^ j • l.getD j 0 := by
    intro l hl
    conv_lhs => rw [e l hl]
    exact powSum_range x k _
  have e3 : (c :: cs).map (fun d => powSum x d.unshifted) =
      (c :: cs).map fun d => ∑ j ∈ range k, x ^ j • d.unshifted.getD j 0 := by
    apply List.map_congr_left
    intro d hd
    exact e2 _ (hk d hd)
  rw [e2 _ h3, e3, lin_sum_right]
  apply Finset.sum_congr rfl
  intro j hj
  rw [lin_smul_right, h4 j (by rw [h3]; exact Finset.mem_range.mp hj)]

/-- a linear combination of commitments opens to that of the polynomials -/
theorem lin_committed {prm : IpaParams G} (hn : 0 < prm.g.length) (x : F) :
    ∀ (linear : List (F × IpaPoly F)) (cs : List (PolyComm G)),
      List.Forall₂ (fun c (l : F × IpaPoly F) => Committed prm c l.2) cs linear →
      lin (linear.map Prod.fst) (cs.map fun d => powSum x d.unshifted) =
        lin ((List.range prm.g.length).map fun i =>
          (linear.map fun l => l.1 * (foldCoeffs prm.g.length x l.2.coeffs).getD i 0).sum) prm.g +
        (linear.map fun l => l.1 * powSum x l.2.commit.unshifted).sum • prm.h
  | [], [], .nil => by
    have := lin_scale_left prm.g.length (0 : F) (fun _ => 0) prm.g
    simp only [mul_zero, zero_smul] at this
    simp only [List.map_nil, List.sum_nil, zero_smul, add_zero, lin]
    exact this.symm
  | l :: ls, c :: cs, .cons h hr => by
    have ih := lin_committed hn x ls cs hr
    simp only [List.map_cons, lin, List.sum_cons, ih]
    rw [(h.fold hn x).1]
    have e1 : (List.range prm.g.length).map (fun i => l.1 * (foldCoeffs prm.g.length x l.2.coeffs).getD i 0 +
        (ls.map fun l => l.1 * (foldCoeffs prm.g.length x l.2.coeffs).getD i 0).sum) =
        List.zipWith (· + ·)
          ((List.range prm.g.length).map fun i => l.1 * (foldCoeffs prm.g.length x l.2.coeffs).getD i 0)
          ((List.range prm.g.length).map fun i =>
            (ls.map fun l => l.1 * (foldCoeffs prm.g.length x l.2.coeffs).getD i 0).sum) := by
      apply List.ext_getElem <;> simp
    rw [e1, lin_add_left _ _ _ (by simp), lin_scale_left, lin_range_getD _ _ _ (by simp [foldCoeffs])]
    module

theorem chunkCount_self (n : Nat) (hn : 0 < n) : chunkCount n n = 1 := by
  rw [chunkCount]
  have : n + n - 1 = (n - 1) + n := by omega
  rw [this, Nat.add_div_right _ hn, Nat.div_eq_of_lt (by omega)]

/-- the commitment the verifier computes for `ft` is the commitment to `ftPoly` -/
theorem ft_committed {prm : IpaParams G} (hn : 0 < prm.g.length) (zetaN zn : F)
    (linear : List (F × IpaPoly F)) (cs : List (PolyComm G)) (t : IpaPoly F) (tc f : PolyComm G)
    (hc : List.Forall₂ (fun c (l : F × IpaPoly F) => Committed prm c l.2) cs linear) (ht : Committed prm tc t)
    (hf : f.shifted = 0)
    (hv : powSum zetaN f.unshifted = lin (linear.map Prod.fst) (cs.map fun d => powSum zetaN d.unshifted))
    (hsize : 2 * prm.g.length ≤ 2 ^ 64 - 1) :
    Committed prm ((f.chunkCommitment zetaN).sub ((tc.chunkCommitment zetaN).scale (zn - 1)))
      (ftPoly prm.g.length zetaN zn linear t) := by
  obtain ⟨h1, h2, -⟩ := ht.fold hn zetaN
  have e : (f.chunkCommitment zetaN).sub ((tc.chunkCommitment zetaN).scale (zn - 1)) =
      ⟨[powSum zetaN f.unshifted - (zn - 1) • powSum zetaN tc.unshifted], 0⟩ := by
    rw [PolyComm.sub, PolyComm.scale, chunkCommitment_powSum, chunkCommitment_powSum]
    have hs1 : (f.chunkCommitment zetaN).shifted = 0 := hf
    have hs2 : (tc.chunkCommitment zetaN).shifted = 0 := h2
    simp [hs1, hs2]
  rw [e]
  refine ⟨⟨fun _ => (linear.map fun l => l.1 * powSum zetaN l.2.commit.unshifted).sum -
      (zn - 1) * powSum zetaN t.commit.unshifted, 0, ?_⟩, rfl, by simp [ftPoly]; omega⟩
  rw [ipaCommit_unbounded _ _ _ _ hn]
  have hlen : (ftPoly prm.g.length zetaN zn linear t).coeffs.length = prm.g.length := by simp [ftPoly]
  rw [hlen, chunkCount_self _ hn, hv, lin_committed hn zetaN linear cs hc, h1]
  simp only [List.range_one, List.map_cons, List.map_nil, zero_mul, List.drop_zero]
  rw [List.take_of_length_le hlen.le]
  have e1 : (ftPoly prm.g.length zetaN zn linear t).coeffs =
      List.zipWith (· + ·) ((List.range prm.g.length).map fun i =>
          (linear.map fun l => l.1 * (foldCoeffs prm.g.length zetaN l.2.coeffs).getD i 0).sum)
        ((List.range prm.g.length).map fun i =>
          (-(zn - 1)) * (foldCoeffs prm.g.length zetaN t.coeffs).getD i 0) := by
    apply List.ext_getElem
    · simp [ftPoly]
    · intro i _ _
      simp [ftPoly]
      ring
  rw [e1, lin_add_left _ _ _ (by simp), lin_scale_left, lin_range_getD _ _ _ (by simp [foldCoeffs])]
  simp only [ftPoly, Option.some.injEq, Prod.mk.injEq, PolyComm.mk.injEq, and_true, List.cons.injEq]
  module

/-- the value of `ft` at the point its chunks are combined for -/
theorem polyVal_ft (n : Nat) (hn : 0 < n) (x zn : F) (linear : List (F × IpaPoly F)) (t : IpaPoly F) :
    polyVal (ftPoly n (x ^ n) zn linear t).coeffs x =
      (linear.map fun l => l.1 * polyVal l.2.coeffs x).sum - (zn - 1) * polyVal t.coeffs x := by
  have e : ∀ f : Nat → F, polyVal ((List.range n).map f) x = ∑ i ∈ range n, f i * x ^ i := by
    intro f
    rw [polyVal, List.length_map, List.length_range]
    apply Finset.sum_congr rfl
    intro i hi
    have hi' := Finset.mem_range.mp hi
    rw [List.getD_eq_getElem _ _ (by simpa using hi')]
    simp
  have e2 : ∀ q : List F, ∑ i ∈ range n, (foldCoeffs n (x ^ n) q).getD i 0 * x ^ i = polyVal q x := by
    intro q
    rw [← polyVal_fold n hn q x, polyVal]
    simp [foldCoeffs]
  rw [ftPoly, e]
  simp only [sub_mul, Finset.sum_sub_distrib, mul_assoc, ← Finset.mul_sum, e2]
  congr 1
  induction linear with
  | nil => simp
  | cons l ls ih =>
    simp only [List.map_cons, List.sum_cons, add_mul, Finset.sum_add_distrib, mul_assoc, ← Finset.mul_sum, e2, ih]

/-! ## The verifier's values -/

theorem combine_true (n : Nat) (hn : 0 < n) (P : KPolys F) (x : F) (e : KEvals (List F))
    (h : KTrueEvaluations n P x e) : e.combine (x ^ n) = some (P.valuesAt x) := by
  rw [KEvals.combine, if_neg (by simp [h.lookup])]
  simp only [h.lookup, h.w, h.z, h.s, h.generic, h.poseidon, horner_chunkValues n hn]
  rfl

theorem ftEval0_eq (idx : KIndex F G) (e0 e1 : KEvals F) (alpha beta gamma zeta zn joint a0 a1 a2 c : F)
    (h1 : zeta ≠ 1) (hw : zeta ≠ idx.w)
    (hc : polishEvaluate ⟨idx.domain, zeta, e0, e1, ⟨alpha, beta, gamma, joint, idx.endo, idx.mds⟩⟩
      idx.constantTerm = some c) :
    ftEval0 idx e0 e1 0 alpha beta gamma zeta zn joint [a0, a1, a2] = some (
      (e0.w 6 + gamma) * e1.z * a0 * polyVal idx.zkpm zeta *
        (∏ i : Fin 6, (gamma + beta * e0.s i + e0.w (i.castLE (by decide)))) -
      a0 * polyVal idx.zkpm zeta * e0.z *
        (∏ i : Fin 7, (gamma + beta * zeta * idx.shift i + e0.w (i.castLE (by decide)))) +
      a1 * ((zn - 1) / (zeta - 1) * (1 - e0.z)) + a2 * ((zn - 1) / (zeta - idx.w) * (1 - e0.z)) - c) := by
  have h1' : zeta - 1 ≠ 0 := sub_ne_zero.mpr h1
  have hw' : zeta - idx.w ≠ 0 := sub_ne_zero.mpr hw
  rw [ftEval0]
  simp only [List.getElem?_cons_zero, List.getElem?_cons_succ, Option.bind_eq_bind, Option.bind_some,
    if_neg (mul_ne_zero hw' h1'), hc, Option.pure_def, foldl_mul_finRange, polyVal_eq]
  congr 1
  have e : (∏ i : Fin 6, (beta * e0.s i + e0.w (i.castLE (by decide)) + gamma)) =
      ∏ i : Fin 6, (gamma + beta * e0.s i + e0.w (i.castLE (by decide))) :=
    Finset.prod_congr rfl fun i _ => by ring
  rw [e]
  field_simp
  ring

/-- the equation of the protocol says that `ft` has the value which the verifier computes -/
theorem equation_iff (P : KPolys F) (e0 e1 : KEvals F) (shift : Fin 7 → F)
    (zkp beta gamma zeta zn w a0 a1 a2 c : F) (index : List (F × IpaPoly F)) :
    KimchiEquation e0 e1 (polyVal (P.sigma 6).coeffs zeta) (fun i => polyVal (P.coefficient i).coeffs zeta)
      shift zkp beta gamma zeta zn w a0 a1 a2 a0 a1
      (c + (index.map fun l => l.1 * polyVal l.2.coeffs zeta).sum) (polyVal P.t.coeffs zeta) ↔
    ((linearPart P e0 e1 beta gamma zkp a0 a1 index).map fun l => l.1 * polyVal l.2.coeffs zeta).sum -
      (zn - 1) * polyVal P.t.coeffs zeta =
      (e0.w 6 + gamma) * e1.z * a0 * zkp *
        (∏ i : Fin 6, (gamma + beta * e0.s i + e0.w (i.castLE (by decide)))) -
      a0 * zkp * e0.z * (∏ i : Fin 7, (gamma + beta * zeta * shift i + e0.w (i.castLE (by decide)))) +
      a1 * ((zn - 1) / (zeta - 1) * (1 - e0.z)) + a2 * ((zn - 1) / (zeta - w) * (1 - e0.z)) - c := by
  rw [KimchiEquation, permConstraint, genericConstraint, genericConstraint, linearPart, List.map_append,
    List.sum_append]
  simp only [List.map_cons, List.map_nil, List.sum_cons, List.sum_nil]
  constructor
  · intro h
    linear_combination h
  · intro h
    linear_combination h

end Crypto3Zk
