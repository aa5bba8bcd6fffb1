import Verif.Lemmas.KimchiVector
import Mathlib.Tactic.Linarith
import Mathlib.Algebra.Order.Ring.Nat

/-!
# The challenge polynomial and the vector of evaluation powers
-/

set_option linter.unusedSectionVars false

namespace Crypto3Zk

variable {F : Type} [Field F]

theorem coefRec_length : ∀ cs : List F, (coefRec cs).length = 2 ^ cs.length
  | [] => rfl
  | c :: cs => by
    simp only [coefRec, List.length_append, List.length_map, coefRec_length cs, List.length_cons,
      pow_succ]
    omega

theorem coefRec_zero : ∀ cs : List F, (coefRec cs).getD 0 0 = 1
  | [] => rfl
  | c :: cs => by
    rw [coefRec, List.getD_append _ _ _ _ (by rw [coefRec_length]; positivity), coefRec_zero cs]

theorem coefRec_step : ∀ (cs : List F) (k j : Nat), 2 ^ k ≤ j → j < 2 ^ (k + 1) → j < 2 ^ cs.length →
    (coefRec cs).getD j 0 = (coefRec cs).getD (j - 2 ^ k) 0 * cs.getD (cs.length - 1 - k) 0
  | [], k, j, h1, _, h3 => by
    have : 0 < 2 ^ k := by positivity
    simp at h3
    omega
  | c :: cs, k, j, h1, h2, h3 => by
    have hk0 : 0 < 2 ^ k := by positivity
    rw [List.length_cons] at h3
    rw [coefRec]
    by_cases hj : j < 2 ^ cs.length
    · have hk : k < cs.length := (Nat.pow_lt_pow_iff_right (by omega)).mp (lt_of_le_of_lt h1 hj)
      rw [List.getD_append _ _ _ _ (by rw [coefRec_length]; exact hj),
        List.getD_append _ _ _ _ (by rw [coefRec_length]; omega), coefRec_step cs k j h1 h2 hj]
      have : (c :: cs).length - 1 - k = (cs.length - 1 - k) + 1 := by simp; omega
      rw [this, List.getD_cons_succ]
    · have hk : k = cs.length := by
        have h4 : cs.length < k + 1 := (Nat.pow_lt_pow_iff_right (a := 2) (by omega)).mp
          (lt_of_le_of_lt (by omega) h2)
        have h5 : k < cs.length + 1 := (Nat.pow_lt_pow_iff_right (a := 2) (by omega)).mp
          (lt_of_le_of_lt h1 h3)
        omega
      subst hk
      rw [pow_succ] at h3
      rw [List.getD_append_right _ _ _ _ (by rw [coefRec_length]; omega), coefRec_length,
        List.getD_append _ _ _ _ (by rw [coefRec_length]; omega)]
      have : (c :: cs).length - 1 - cs.length = 0 := by simp
      rw [this, List.getD_cons_zero, List.getD_eq_getElem _ _ (by rw [List.length_map, coefRec_length]; omega),
        List.getElem_map, List.getD_eq_getElem _ _ (by rw [coefRec_length]; omega)]

private theorem coefficients_inv (cs : List F) : ∀ m, m + 1 ≤ 2 ^ cs.length →
    ∃ l k, ((List.range' 1 m).foldl (bCoeffStep cs) (List.replicate (2 ^ cs.length) 1, 0, 1)) =
      (l, k, 2 ^ k) ∧ l.length = 2 ^ cs.length ∧ m < 2 ^ k ∧ (k ≠ 0 → 2 ^ (k - 1) ≤ m) ∧
      ∀ j, j ≤ m → l.getD j 0 = (coefRec cs).getD j 0
  | 0, _ => ⟨_, 0, rfl, by simp, by simp, by simp, fun j hj => by
      obtain rfl : j = 0 := by omega
      rw [coefRec_zero, List.getD_eq_getElem _ _ (by simp)]
      simp⟩
  | m + 1, hm => by
    obtain ⟨l, k, he, hl, hk, hk', hj⟩ := coefficients_inv cs m (by omega)
    rw [List.range'_concat, List.foldl_append, he]
    simp only [List.foldl_cons, List.foldl_nil, one_mul]
    have key : ∀ k', m + 1 < 2 ^ (k' + 1) → 2 ^ k' ≤ m + 1 →
        ∀ j, j ≤ m + 1 → (l.set (1 + m) (l.getD (1 + m - 2 ^ (k' + 1) / 2) 0 *
          cs.getD (cs.length - 1 - (k' + 1 - 1)) 0)).getD j 0 = (coefRec cs).getD j 0 := by
      intro k' h1 h2 j h3
      have hp : 0 < 2 ^ k' := by positivity
      have hd : 2 ^ (k' + 1) / 2 = 2 ^ k' := by rw [pow_succ]; omega
      rw [hd, Nat.add_sub_cancel]
      by_cases hjm : j = 1 + m
      · subst hjm
        rw [List.getD_eq_getElem _ _ (by rw [List.length_set]; omega), List.getElem_set_self,
          coefRec_step cs k' (1 + m) (by omega) (by omega) (by omega), hj _ (by omega)]
      · rw [List.getD_eq_getElem _ _ (by rw [List.length_set]; omega), List.getElem_set_ne (by omega),
          ← hj j (by omega)]
        exact (List.getD_eq_getElem l 0 _).symm
    by_cases hp : 1 + m = 2 ^ k
    · have h2 : 2 ^ (k + 1) = 2 * 2 ^ k := by rw [pow_succ, mul_comm]
      have h1 := key k (by omega) (by omega)
      refine ⟨_, k + 1, ?_, ?_, ?_, ?_, h1⟩
      · rw [bCoeffStep, h2]
        simp only [if_pos hp]
      · rw [List.length_set, hl]
      · omega
      · intro _
        rw [Nat.add_sub_cancel]
        omega
    · have hk0 : k ≠ 0 := by
        rintro rfl
        simp at hk hp
        omega
      obtain ⟨k', rfl⟩ := Nat.exists_eq_succ_of_ne_zero hk0
      refine ⟨_, k' + 1, by rw [bCoeffStep]; simp only [hp, if_false]; rfl, ?_⟩
      have h3 := hk' hk0
      rw [Nat.succ_eq_add_one, Nat.add_sub_cancel] at h3
      exact ⟨by rw [List.length_set, hl], by rw [Nat.succ_eq_add_one] at hk hp; omega,
        fun _ => by rw [Nat.add_sub_cancel]; omega,
        key k' (by rw [Nat.succ_eq_add_one] at hk hp; omega) (by omega)⟩

theorem bPolyCoefficients_eq (cs : List F) : bPolyCoefficients cs = coefRec cs := by
  have hp : 0 < 2 ^ cs.length := by positivity
  obtain ⟨l, k, he, hl, _, _, hj⟩ := coefficients_inv cs (2 ^ cs.length - 1) (by omega)
  rw [bPolyCoefficients, he]
  refine List.ext_getElem (by rw [hl, coefRec_length]) fun i h1 h2 => ?_
  have h3 : i < 2 ^ cs.length := by rw [← coefRec_length cs]; exact h2
  have := hj i (by omega)
  rwa [List.getD_eq_getElem _ _ h1, List.getD_eq_getElem _ _ h2] at this

private theorem powTwos_eq (x : F) : ∀ m,
    (List.range m).foldl (fun (l : List F) _ => l ++ [(l.getLastD 0) ^ 2]) [x] =
      (List.range (m + 1)).map fun i => x ^ 2 ^ i
  | 0 => by simp
  | m + 1 => by
    rw [List.range_succ, List.foldl_append, powTwos_eq x m, List.range_succ (n := m + 1), List.map_append]
    simp only [List.foldl_cons, List.foldl_nil, List.map_cons, List.map_nil]
    rw [List.range_succ, List.map_append]
    simp only [List.map_cons, List.map_nil, List.getLastD_concat, ← pow_mul, pow_succ 2 m]

theorem bPoly_eq (cs : List F) (x : F) :
    bPoly cs x = ((List.range cs.length).map fun i => 1 + cs.getD i 0 * x ^ 2 ^ (cs.length - 1 - i)).prod := by
  rw [bPoly, List.prod_eq_foldl, List.foldl_map]
  apply List.foldl_ext
  intro acc i hi
  have hi' := List.mem_range.mp hi
  rw [powTwos_eq]
  congr 3
  rw [List.getD_eq_getElem _ _ (by simp only [List.length_map, List.length_range]; omega)]
  simp

theorem bPoly_nil (x : F) : bPoly [] x = 1 := by simp [bPoly_eq]

theorem bPoly_cons (c : F) (cs : List F) (x : F) :
    bPoly (c :: cs) x = (1 + c * x ^ 2 ^ cs.length) * bPoly cs x := by
  rw [bPoly_eq, bPoly_eq, List.length_cons, List.range_succ_eq_map, List.map_cons, List.prod_cons,
    List.map_map]
  congr 2
  apply List.map_congr_left
  intro i hi
  simp only [Function.comp_apply, Nat.succ_eq_add_one, List.getD_cons_succ]
  congr 4
  omega

theorem horner_append (p q : List F) (x : F) :
    hornerEval (p ++ q) x = hornerEval p x + x ^ p.length * hornerEval q x := by
  rw [horner_powSum, horner_powSum, horner_powSum, powSum_append, smul_eq_mul]

theorem horner_map_mul (p : List F) (c x : F) :
    hornerEval (p.map fun y => y * c) x = c * hornerEval p x := by
  induction p with
  | nil => simp [hornerEval]
  | cons y p ih =>
    have h : ∀ (z : F) (q : List F), hornerEval (z :: q) x = z + x * hornerEval q x := fun _ _ => rfl
    rw [List.map_cons, h, h, ih]
    ring

theorem horner_coefRec : ∀ (cs : List F) (x : F), hornerEval (coefRec cs) x = bPoly cs x
  | [], x => by simp [coefRec, hornerEval, bPoly_nil]
  | c :: cs, x => by
    rw [coefRec, horner_append, horner_map_mul, horner_coefRec cs x, bPoly_cons, coefRec_length]
    ring

/-! ## The vector of powers -/

private theorem ipaB_foldl (size : Nat) (r : F) : ∀ (pts : List F) (f : Nat → F) (s : F),
    (pts.foldl (fun (s : List F × F) e => (s.1.mapIdx fun i x => x + s.2 * e ^ i, s.2 * r))
      ((List.range size).map f, s)).1 =
      (List.range size).map fun i => f i + s * powSum r (pts.map (· ^ i))
  | [], f, s => by simp [powSum]
  | e :: pts, f, s => by
    rw [List.foldl_cons]
    have : ((List.range size).map f).mapIdx (fun i x => x + s * e ^ i) =
        (List.range size).map fun i => f i + s * e ^ i := by
      apply List.ext_getElem
      · simp
      · intro i h1 h2
        simp
    simp only [this]
    rw [ipaB_foldl size r pts]
    apply List.map_congr_left
    intro i _
    rw [List.map_cons, powSum, smul_eq_mul]
    ring

theorem ipaB_eq (size : Nat) (r : F) (pts : List F) :
    ipaB size r pts = (List.range size).map fun i => powSum r (pts.map (· ^ i)) := by
  have h := ipaB_foldl size r pts (fun _ => 0) 1
  have h0 : (List.range size).map (fun _ => (0 : F)) = List.replicate size 0 := by
    apply List.ext_getElem <;> simp
  rw [h0] at h
  rw [ipaB, h]
  simp

theorem ipaB_length (size : Nat) (r : F) (pts : List F) : (ipaB size r pts).length = size := by
  simp [ipaB_eq]

theorem lin_ipaB (size : Nat) (r : F) (pts : List F) : ∀ (seg : List F) (off : Nat),
    off + seg.length ≤ size → lin seg ((ipaB size r pts).drop off) =
      powSum r (pts.map fun x => x ^ off * hornerEval seg x)
  | [], off, _ => by
    have : pts.map (fun x => x ^ off * hornerEval [] x) = List.replicate pts.length 0 := by
      apply List.ext_getElem <;> simp [hornerEval]
    rw [lin_nil_left, this]
    induction pts.length with
    | zero => rfl
    | succ k ih => rw [List.replicate_succ, powSum, ← ih, smul_zero, add_zero]
  | y :: seg, off, h => by
    rw [List.length_cons] at h
    have h1 : off < (ipaB size r pts).length := by rw [ipaB_length]; omega
    rw [List.drop_eq_getElem_cons h1, lin_cons, lin_ipaB size r pts seg (off + 1) (by omega)]
    have h2 : (ipaB size r pts)[off] = powSum r (pts.map (· ^ off)) := by simp [ipaB_eq]
    have h3 : y • powSum r (pts.map (· ^ off)) = powSum r (pts.map fun x => x ^ off * y) := by
      clear h h1 h2
      induction pts with
      | nil => simp [powSum]
      | cons x pts ih =>
        rw [List.map_cons, List.map_cons, powSum, powSum, ← ih]
        simp only [smul_eq_mul]
        ring
    rw [h2, h3, ← powSum_zipAdd _ _ _ (by simp)]
    congr 1
    apply List.ext_getElem
    · simp
    · intro i h4 h5
      simp only [List.getElem_zipWith, List.getElem_map]
      have : ∀ x, hornerEval (y :: seg) x = y + x * hornerEval seg x := fun _ => rfl
      rw [this]
      ring

/-- the combination of the values of the challenge polynomial is the inner product of its coefficients
with the vector of powers -/
theorem lin_coefRec_ipaB (r : F) (pts cs : List F) :
    lin (coefRec cs) (ipaB (2 ^ cs.length) r pts) = powSum r (pts.map (bPoly cs)) := by
  have := lin_ipaB (2 ^ cs.length) r pts (coefRec cs) 0 (by rw [coefRec_length]; omega)
  rw [List.drop_zero] at this
  rw [this]
  congr 1
  apply List.map_congr_left
  intro x _
  rw [pow_zero, one_mul, horner_coefRec]

theorem foldl_powSum {A : Type} (f : A → F) (r : F) : ∀ (l : List A) (s : F × F),
    l.foldl (fun (s : F × F) e => (s.1 + s.2 * f e, s.2 * r)) s =
      (s.1 + s.2 * powSum r (l.map f), s.2 * r ^ l.length)
  | [], s => by simp [powSum]
  | e :: l, s => by
    rw [List.foldl_cons, foldl_powSum f r l, List.map_cons, powSum, smul_eq_mul, List.length_cons, pow_succ]
    ext <;> simp <;> ring

end Crypto3Zk
