import Verif.Lemmas.ArithmeticPrograms

set_option linter.unusedSectionVars false

namespace Crypto3Zk

variable {F : Type*} [Field F]

open Polynomial

/-! ## SSP -/

theorem dot_lagrange_one {D : EvalDomain F} (h : D.Lawful) (hm : 0 < D.m) (t : F) :
    dot (List.replicate D.m (1 : F)) (fun i => (D.lagrange t).getD i 0) = 1 := by
  have := h.eval_lagrange (1 : F[X]) (by rw [degree_one]; exact_mod_cast hm) t
  rw [dot_comm _ _ (by rw [h.length_lagrange]; simp)]
  simp only [eval_one] at this
  conv_rhs => rw [← this]
  apply dot_congr
  intro i hi
  rw [h.length_lagrange] at hi
  simp [hi]

namespace USCS

/-- values of `V` on the domain: the constraints, then ones -/
def sspRow (m : Nat) (cs : USCS F) (x : Nat → F) : List F :=
  (cs.constraints.map fun k => formalValue k x) ++ List.replicate (m - cs.numConstraints) (x 0)

theorem length_sspRow (m : Nat) (cs : USCS F) (x : Nat → F) (hm : cs.numConstraints ≤ m) :
    (cs.sspRow m x).length = m := by
  unfold numConstraints at hm
  simp [sspRow, numConstraints]; omega

theorem dot_replicate (n : Nat) (c : F) (u : Nat → F) :
    dot (List.replicate n c) u = ∑ i ∈ Finset.range n, c * u i := by
  rw [dot_eq_sum]
  simp only [List.length_replicate]
  exact Finset.sum_congr rfl fun i hi => by simp [Finset.mem_range.1 hi]

theorem bil_ssp (D : EvalDomain F) (cs : USCS F) (u x : Nat → F) :
    bil (cs.sspEvalWrites D) u x = dot (cs.sspRow D.m x) u := by
  rw [sspEvalWrites, bil_append, bil_side (fun k => k), sspRow, dot_append, dot_replicate]
  congr 1
  · simp
  · rw [bil, List.map_map, List.range'_eq_map_range, List.map_map, list_sum_range]
    apply Finset.sum_congr rfl
    intro i _
    simp [numConstraints]; ring

variable {D : EvalDomain F}

theorem sspEval_spec (h : D.Lawful) (cs : USCS F) (hr : cs.WellRanged)
    (hm : cs.numConstraints ≤ D.m) (t : F) :
    ∃ qi q, cs.sspInstance D = some qi ∧ cs.sspEval D t = some q ∧ qi.evalAt D t = some q ∧
      q.numVariables = cs.numVariables ∧ q.degree = D.m ∧ q.numInputs = cs.numInputs ∧ q.t = t ∧
      q.Vt.length = cs.numVariables + 1 ∧ q.Ht = powersFrom t 1 (D.m + 1) ∧
      q.Zt = D.vanishing t ∧
      (∀ x, dot q.Vt x = dot (cs.sspRow D.m x) (fun i => (D.lagrange t).getD i 0)) := by
  have hlen := h.length_lagrange t
  have hV : UpdIn (cs.sspEvalWrites D) (cs.numVariables + 1) (D.lagrange t).length := by
    intro w hw
    rw [sspEvalWrites, List.mem_append] at hw
    rcases hw with hw | hw
    · refine updIn_side (fun k => k) cs.constraints cs.numVariables _ hr ?_ w hw
      rw [hlen]; exact hm
    · simp only [List.mem_map, List.mem_range'_1] at hw
      obtain ⟨i, hi, rfl⟩ := hw
      simp only [hlen]
      omega
  obtain ⟨vA, At, eA1, eA2, eA3, lA, dA⟩ := evalMaps_eq_runEval (D.lagrange t) (cs.numVariables + 1)
    (cs.sspWrites D) (cs.sspEvalWrites D) hV hV (fun _ _ => rfl)
  refine ⟨⟨cs.numVariables, D.m, cs.numInputs, vA⟩,
    ⟨cs.numVariables, D.m, cs.numInputs, t, At, powersFrom t 1 (D.m + 1), D.vanishing t⟩,
    ?_, ?_, ?_, rfl, rfl, rfl, rfl, lA, rfl, rfl, ?_⟩
  · simp [sspInstance, eA1]
  · simp [sspEval, eA2]
  · simp [SspInstance.evalAt, eA3]
  · intro x; exact (dA x).trans (bil_ssp D cs _ x)

theorem ssp_rows_iff (cs : USCS F) (p w : List F) (m : Nat) (hm : cs.numConstraints ≤ m) :
    (∀ i < m, (cs.sspRow m (envOf (p ++ w))).getD i 0 * (cs.sspRow m (envOf (p ++ w))).getD i 0 = 1)
      ↔ cs.Sat p w := by
  have hsq : ∀ v : F, v * v = 1 ↔ v = 1 ∨ v = -1 := fun v => mul_self_eq_one_iff
  unfold numConstraints at hm
  constructor
  · intro h k hk
    obtain ⟨i, hi, rfl⟩ := List.getElem_of_mem hk
    have := h i (by omega)
    rw [← hsq]
    simpa [sspRow, List.getElem?_append_left, hi] using this
  · intro h i him
    by_cases hi : i < cs.constraints.length
    · have := h _ (List.getElem_mem hi)
      rw [← hsq] at this
      simpa [sspRow, List.getElem?_append_left, hi] using this
    · have h0 : (cs.sspRow m (envOf (p ++ w))).getD i 0 = 1 := by
        simp only [sspRow, List.getD_eq_getElem?_getD, numConstraints]
        rw [List.getElem?_append_right (by simp; omega), List.getElem?_replicate]
        simp only [List.length_map]
        rw [if_pos (by omega)]
        rfl
      rw [h0, mul_one]

theorem sspRows_spec (cs : USCS F) (full : List F)
    (hk : ∀ k ∈ cs.constraints, IndicesLE k full.length) (hm : cs.numConstraints ≤ D.m) :
    ∃ r, cs.sspRows D full = some r ∧
      runRows (List.replicate D.m 0) r = some (cs.sspRow D.m (envOf full)) := by
  have e1 : (cs.constraints.zipIdx.mapM fun (k, i) =>
      (LinComb.evaluate k full).map fun v => (i, v))
      = some (cs.constraints.zipIdx.map fun (k, i) => (i, formalValue k (envOf full))) := by
    apply mapM_some
    rintro ⟨k, i⟩ hki
    simp only
    rw [LinComb.evaluate_eq_some (hk k (mem_zipIdx_lt hki).2)]
    rfl
  have e : cs.sspRows D full
      = some ((cs.constraints.zipIdx.map fun (k, i) => (i, formalValue k (envOf full))) ++
        (List.range' cs.numConstraints (D.m - cs.numConstraints)).map fun i => (i, 1)) := by
    simp only [sspRows, e1]
    rfl
  refine ⟨_, e, ?_⟩
  obtain ⟨l, e3, hl, hd⟩ := runRows_spec
    ((cs.constraints.zipIdx.map fun (k, i) => (i, formalValue k (envOf full))) ++
        (List.range' cs.numConstraints (D.m - cs.numConstraints)).map fun i => (i, 1))
    (List.replicate D.m (0 : F)) (by
      intro w hw
      rw [List.mem_append] at hw
      rcases hw with hw | hw
      · simp only [List.mem_map, Prod.exists] at hw
        obtain ⟨k, i, hki, rfl⟩ := hw
        have := (mem_zipIdx_lt hki).1
        unfold numConstraints at hm
        simp; omega
      · simp only [List.mem_map, List.mem_range'_1] at hw
        obtain ⟨i, hi, rfl⟩ := hw
        simp; omega)
  rw [e3]
  congr 1
  apply dot_ext
  · rw [hl, length_sspRow _ _ _ hm]; simp
  · intro u
    rw [hd, dot_replicate_zero, zero_add, List.map_append, List.sum_append,
      sum_side (fun k => formalValue k (envOf full)), sspRow, dot_append, dot_replicate]
    congr 1
    · simp
    · rw [List.map_map, List.range'_eq_map_range, List.map_map, list_sum_range]
      apply Finset.sum_congr rfl
      intro i _
      simp [numConstraints, envOf]

theorem sspWitness_spec (h : D.Lawful) (cs : USCS F) (hr : cs.WellRanged) (p w : List F)
    (hp : p.length = cs.primaryInputSize) (hw : w.length = cs.auxiliaryInputSize)
    (hm : cs.numConstraints ≤ D.m) (hm0 : 0 < D.m) (hsat : cs.Sat p w) (d : F) :
    ∃ H, cs.sspWitness D p w d = some ⟨cs.numVariables, D.m, cs.numInputs, d, p ++ w, H⟩ ∧
      H.length = D.m + 1 ∧
      ∀ t, (dot (cs.sspRow D.m (envOf (p ++ w))) (fun i => (D.lagrange t).getD i 0)
            + d * D.vanishing t) *
          (dot (cs.sspRow D.m (envOf (p ++ w))) (fun i => (D.lagrange t).getD i 0)
            + d * D.vanishing t) - 1 = evalPoly H t * D.vanishing t := by
  have hfull : (p ++ w).length = cs.numVariables := by simp [hp, hw, numVariables]
  obtain ⟨r, e1, e2⟩ := sspRows_spec (D := D) cs (p ++ w)
    (fun k hk => by rw [hfull]; exact hr k hk) hm
  set a := cs.sspRow D.m (envOf (p ++ w)) with ha
  have la : a.length = D.m := length_sspRow _ _ _ hm
  have hrows := (ssp_rows_iff cs p w D.m hm).2 hsat
  rw [← ha] at hrows
  have lia := h.inverse_length a la
  set h0 := (D.inverseFft a).map (fun a => 2 * d * a) ++ [0] with hh0
  have lh0 : h0.length = D.m + 1 := by simp [hh0, lia]
  have eh0 : ∀ x, evalPoly h0 x = 2 * d * evalPoly (D.inverseFft a) x := by
    intro x
    rw [hh0, evalPoly_append, evalPoly_map_mul]
    simp
  have lz := h.addPolyZ_length (d * d) h0 lh0
  have ez := h.addPolyZ_eq (d * d) h0 lh0
  obtain ⟨lca, eca⟩ := toCoset_getD h (D.inverseFft a) lia
  set num := (toCoset D (D.inverseFft a)).map (fun a => a * a - 1) with hnum
  have lnum : num.length = D.m := by simp [hnum, lca]
  obtain ⟨lH, eH⟩ := finishH_spec h (D.addPolyZ (d * d) h0) num
    (interp D a * interp D a - 1) lz
    (degree_sub_lt' (degree_mul_lt (interp_degree h a la) (interp_degree h a la))
      (by rw [degree_one]; exact_mod_cast (by omega : 0 < 2 * D.m)))
    (by
      intro i hi
      rw [eval_sub, eval_mul, interp_point h a la i hi, hrows i hi, eval_one, sub_self])
    lnum
    (by
      intro i hi
      simp only [eval_sub, eval_mul, interp, eval_toPoly, eval_one]
      rw [← eca i hi, List.getD_eq_getElem _ _ (by omega), List.getD_eq_getElem _ _ (by omega)]
      simp [hnum])
  refine ⟨finishH D (D.addPolyZ (d * d) h0) num, ?_, lH, fun t => ?_⟩
  · simp only [sspWitness, e1, Option.bind_eq_bind, Option.bind_some, e2, Option.pure_def]
    rfl
  · rw [eH, ez, eh0]
    have i1 := interp_eval h a la t
    simp only [eval_sub, eval_mul, eval_one, i1]
    rw [interp, eval_toPoly] at i1
    rw [i1]
    ring

end USCS

theorem SspEval.isSatisfied_iff [DecidableEq F] (D : EvalDomain F) (q : SspEval F)
    (w : SspWitness F) :
    q.isSatisfied D w = true ↔
      q.numVariables = w.numVariables ∧ q.degree = w.degree ∧ q.numInputs = w.numInputs ∧
      q.numVariables = w.coefficientsForVs.length ∧
      q.degree + 1 = w.coefficientsForH.length ∧
      q.Vt.length = q.numVariables + 1 ∧ q.Ht.length = q.degree + 1 ∧
      q.Zt = D.vanishing q.t ∧
      ansOf q.Vt w.d q.Zt w.coefficientsForVs * ansOf q.Vt w.d q.Zt w.coefficientsForVs - 1
        = innerProduct q.Ht w.coefficientsForH * q.Zt := by
  unfold SspEval.isSatisfied
  simp only [ne_eq, zero_add, ite_not]
  by_cases h1 : q.numVariables = w.numVariables <;> simp only [h1, if_true, if_false, true_and, false_and, Bool.false_eq_true]
  by_cases h2 : q.degree = w.degree <;> simp only [h2, if_true, if_false, true_and, false_and, Bool.false_eq_true]
  by_cases h3 : q.numInputs = w.numInputs <;> simp only [h3, if_true, if_false, true_and, false_and, Bool.false_eq_true]
  by_cases h4 : w.numVariables = w.coefficientsForVs.length <;> simp only [h4, if_true, if_false, true_and, false_and, Bool.false_eq_true]
  by_cases h5 : w.degree + 1 = w.coefficientsForH.length <;> simp only [h5, if_true, if_false, true_and, false_and, Bool.false_eq_true]
  by_cases h6 : q.Vt.length = w.coefficientsForVs.length + 1 <;>
    by_cases h9 : q.Ht.length = w.coefficientsForH.length <;>
    by_cases h10 : q.Zt = D.vanishing q.t <;> simp_all

/-! ## SAP -/

/-- an additive functional of lists of writes -/
theorem additive_pairs {α γ : Type*} (φ : List γ → F) (φ0 : φ [] = 0)
    (φa : ∀ l l', φ (l ++ l') = φ l + φ l') (u : Nat → F) (W : α → List γ) (f g : α → F)
    (L : List α) (r : Nat)
    (hW : ∀ j (hj : j < L.length), φ (W L[j]) = u (r + 2 * j) * f L[j] + u (r + 2 * j + 1) * g L[j]) :
    φ (L.flatMap W) = dot (L.flatMap fun a => [f a, g a]) (fun i => u (r + i)) := by
  induction L generalizing r with
  | nil => simp [φ0, dot]
  | cons a L ih =>
    rw [List.flatMap_cons, φa, List.flatMap_cons, dot_append]
    have h0 := hW 0 (by simp)
    simp only [List.getElem_cons_zero, mul_zero, add_zero] at h0
    rw [h0, ih (r + 2)]
    · simp only [dot, List.length_cons, List.length_nil, add_zero, zero_add]
      have : (fun i => u (r + 2 + i)) = fun i => u (r + (1 + 1 + i)) := by
        funext i; congr 1; omega
      rw [this]
      ring
    · intro j hj
      have := hW (j + 1) (by simpa using hj)
      simp only [List.getElem_cons_succ] at this
      rw [this, show r + 2 * (j + 1) = r + 2 + 2 * j by omega]

theorem length_pairs {α β : Type*} (f g : α → β) (L : List α) :
    (L.flatMap fun a => [f a, g a]).length = 2 * L.length := by
  induction L with
  | nil => rfl
  | cons a L ih => simp [List.flatMap_cons, ih]; omega

theorem forall₂_pairs {α : Type*} (R : F → F → Prop) (f g f' g' : α → F) (L : List α) :
    List.Forall₂ R (L.flatMap fun a => [f a, g a]) (L.flatMap fun a => [f' a, g' a]) ↔
      ∀ a ∈ L, R (f a) (f' a) ∧ R (g a) (g' a) := by
  induction L with
  | nil => simp
  | cons a L ih =>
    simp only [List.flatMap_cons, List.cons_append, List.nil_append, List.forall₂_cons, ih,
      List.mem_cons, forall_eq_or_imp]
    tauto

theorem forall₂_append_iff {R : F → F → Prop} {a b a' b' : List F} (h : a.length = a'.length) :
    List.Forall₂ R (a ++ b) (a' ++ b') ↔ List.Forall₂ R a a' ∧ List.Forall₂ R b b' := by
  induction a generalizing a' with
  | nil => cases a' <;> simp_all
  | cons x a ih =>
    cases a' with
    | nil => simp at h
    | cons y a' =>
      simp only [List.cons_append, List.forall₂_cons, ih (by simpa using h)]
      tauto

theorem forall₂_iff_getD (a c : List F) (h : a.length = c.length) (m : Nat) (hm : a.length ≤ m) :
    (∀ i < m, (padTo m a).getD i 0 * (padTo m a).getD i 0 = (padTo m c).getD i 0) ↔
      List.Forall₂ (fun x y => x * x = y) a c := by
  rw [List.forall₂_iff_get]
  simp only [getD_padTo]
  constructor
  · intro hh
    refine ⟨h, fun i h1 h2 => ?_⟩
    have := hh i (by omega)
    simpa [List.getElem?_eq_getElem h1, List.getElem?_eq_getElem h2] using this
  · rintro ⟨-, hh⟩ i _
    by_cases hi : i < a.length
    · have := hh i hi (by omega)
      simpa [List.getElem?_eq_getElem hi, List.getElem?_eq_getElem (h ▸ hi)] using this
    · simp [List.getElem?_eq_none (by omega : a.length ≤ i),
        List.getElem?_eq_none (by omega : c.length ≤ i)]

theorem timesFour_eq (x : F) : timesFour x = 4 * x := by unfold timesFour; ring

namespace R1CS

/-- the values of `A` on the domain -/
def sapARow (m : Nat) (cs : R1CS F) (x : Nat → F) : List F :=
  padTo m ((cs.constraints.zipIdx.flatMap fun ki =>
      [formalValue ki.1.a x + formalValue ki.1.b x, formalValue ki.1.a x - formalValue ki.1.b x]) ++
    ([x 0] ++ (List.range' 1 cs.numInputs).flatMap fun i => [x i + x 0, x i - x 0]))

/-- the values of `C` on the domain -/
def sapCRow (m : Nat) (cs : R1CS F) (x : Nat → F) : List F :=
  padTo m ((cs.constraints.zipIdx.flatMap fun ki =>
      [4 * formalValue ki.1.c x + x (cs.numVariables + 1 + ki.2), x (cs.numVariables + 1 + ki.2)]) ++
    ([x 0] ++ (List.range' 1 cs.numInputs).flatMap fun i =>
      [4 * x i + x (cs.numVariables + cs.numConstraints + i),
       x (cs.numVariables + cs.numConstraints + i)]))

theorem length_sapARow (m : Nat) (cs : R1CS F) (x : Nat → F) (hm : cs.sapDomainSize ≤ m) :
    (cs.sapARow m x).length = m := by
  apply length_padTo
  rw [List.length_append, List.length_append, length_pairs, length_pairs]
  simp only [sapDomainSize, numConstraints] at hm
  simp; omega

theorem length_sapCRow (m : Nat) (cs : R1CS F) (x : Nat → F) (hm : cs.sapDomainSize ≤ m) :
    (cs.sapCRow m x).length = m := by
  apply length_padTo
  rw [List.length_append, List.length_append, length_pairs, length_pairs]
  simp only [sapDomainSize, numConstraints] at hm
  simp; omega

theorem bil_pairTerms (lc : LinComb F) (i j : Nat) (e : F) (u x : Nat → F) :
    bil (lc.flatMap fun lt => [(⟨lt.index, i, lt.coeff⟩ : Upd F), ⟨lt.index, j, e * lt.coeff⟩]) u x
      = u i * formalValue lc x + u j * (e * formalValue lc x) := by
  induction lc with
  | nil => simp [formalValue]
  | cons t ts ih =>
    rw [List.flatMap_cons, bil_append, ih, LinComb.formalValue_cons]
    simp only [bil_cons, bil_nil]; ring

theorem bil_mapTerms4 (lc : LinComb F) (i : Nat) (u x : Nat → F) :
    bil (lc.map fun lt => (⟨lt.index, i, timesFour lt.coeff⟩ : Upd F)) u x
      = u i * (4 * formalValue lc x) := by
  induction lc with
  | nil => simp [formalValue]
  | cons t ts ih =>
    rw [List.map_cons, bil_cons, ih, LinComb.formalValue_cons, timesFour_eq]; ring

theorem bil_sapA (m : Nat) (cs : R1CS F) (u x : Nat → F) :
    bil cs.sapAEvalWrites u x = dot (cs.sapARow m x) u := by
  rw [sapAEvalWrites, bil_append, bil_append, sapARow, dot_padTo, dot_append, dot_append]
  rw [add_assoc]
  congr 1
  · rw [additive_pairs (fun l => bil l u x) rfl (fun l l' => bil_append l l' u x) u
      _ (fun ki : R1CSConstraint F × Nat => formalValue ki.1.a x + formalValue ki.1.b x)
      (fun ki => formalValue ki.1.a x - formalValue ki.1.b x) cs.constraints.zipIdx 0]
    · simp
    · intro j hj
      simp only [List.getElem_zipIdx, zero_add]
      rw [bil_append]
      have h1 := bil_pairTerms (cs.constraints[j]'(by simpa using hj)).a (2 * j) (2 * j + 1) 1 u x
      have h2 := bil_pairTerms (cs.constraints[j]'(by simpa using hj)).b (2 * j) (2 * j + 1) (-1) u x
      simp only [one_mul, neg_mul] at h1 h2
      rw [h1, h2]
      ring
  · congr 1
    · simp [dot, length_pairs, numConstraints, mul_comm]
    · rw [additive_pairs (fun l => bil l u x) rfl (fun l l' => bil_append l l' u x) u
        _ (fun i => x i + x 0) (fun i => x i - x 0) (List.range' 1 cs.numInputs)
        (2 * cs.numConstraints + 1)]
      · congr 1
        funext i
        congr 1
        simp only [length_pairs, numConstraints, List.length_zipIdx, List.length_singleton]
        omega
      · intro j hj
        simp only [List.getElem_range', bil_cons, bil_nil, one_mul]
        have e1 : 2 * cs.numConstraints + 2 * (1 + j) - 1 = 2 * cs.numConstraints + 1 + 2 * j := by
          omega
        have e2 : 2 * cs.numConstraints + 2 * (1 + j) = 2 * cs.numConstraints + 1 + 2 * j + 1 := by
          omega
        rw [e1, e2]
        ring

theorem bil_sapC (m : Nat) (cs : R1CS F) (u x : Nat → F) :
    bil cs.sapCEvalWrites u x = dot (cs.sapCRow m x) u := by
  rw [sapCEvalWrites, bil_append, bil_append, sapCRow, dot_padTo, dot_append, dot_append]
  rw [add_assoc]
  congr 1
  · rw [additive_pairs (fun l => bil l u x) rfl (fun l l' => bil_append l l' u x) u
      _ (fun ki : R1CSConstraint F × Nat =>
          4 * formalValue ki.1.c x + x (cs.numVariables + 1 + ki.2))
      (fun ki => x (cs.numVariables + 1 + ki.2)) cs.constraints.zipIdx 0]
    · simp
    · intro j hj
      simp only [List.getElem_zipIdx, zero_add]
      rw [bil_append, bil_mapTerms4]
      simp only [bil_cons, bil_nil]
      ring
  · congr 1
    · simp [dot, length_pairs, numConstraints, mul_comm]
    · rw [additive_pairs (fun l => bil l u x) rfl (fun l l' => bil_append l l' u x) u
        _ (fun i => 4 * x i + x (cs.numVariables + cs.numConstraints + i))
        (fun i => x (cs.numVariables + cs.numConstraints + i)) (List.range' 1 cs.numInputs)
        (2 * cs.numConstraints + 1)]
      · congr 1
        funext i
        congr 1
        simp only [length_pairs, numConstraints, List.length_zipIdx, List.length_singleton]
        omega
      · intro j hj
        simp only [List.getElem_range', bil_cons, bil_nil, one_mul, timesFour_eq]
        have e1 : 2 * cs.numConstraints + 2 * (1 + j) - 1 = 2 * cs.numConstraints + 1 + 2 * j := by
          omega
        have e2 : 2 * cs.numConstraints + 2 * (1 + j) = 2 * cs.numConstraints + 1 + 2 * j + 1 := by
          omega
        rw [e1, e2]
        ring

variable {D : EvalDomain F}

theorem sapEval_spec (h : D.Lawful) (cs : R1CS F) (hr : cs.WellRanged)
    (hm : cs.sapDomainSize ≤ D.m) (t : F) :
    ∃ qi q, cs.sapInstance D = some qi ∧ cs.sapEval D t = some q ∧ qi.evalAt D t = some q ∧
      q.numVariables = cs.sapNumVariables ∧ q.degree = D.m ∧ q.numInputs = cs.numInputs ∧ q.t = t ∧
      q.At.length = cs.sapNumVariables + 1 ∧ q.Ct.length = cs.sapNumVariables + 1 ∧
      q.Ht = powersFrom t 1 (D.m + 1) ∧ q.Zt = D.vanishing t ∧
      (∀ x, dot q.At x = dot (cs.sapARow D.m x) (fun i => (D.lagrange t).getD i 0)) ∧
      (∀ x, dot q.Ct x = dot (cs.sapCRow D.m x) (fun i => (D.lagrange t).getD i 0)) := by
  have hlen := h.length_lagrange t
  have hA : UpdIn cs.sapAEvalWrites (cs.sapNumVariables + 1) (D.lagrange t).length := by
    intro w hw
    rw [sapAEvalWrites, List.mem_append, List.mem_append] at hw
    simp only [sapDomainSize, numConstraints, sapNumVariables, numInputs, numVariables] at *
    rcases hw with (hw | hw) | hw
    · simp only [List.mem_flatMap, Prod.exists, List.mem_append, List.mem_cons, List.not_mem_nil,
        or_false] at hw
      obtain ⟨k, i, hki, hw⟩ := hw
      obtain ⟨hi, hk⟩ := mem_zipIdx_lt hki
      obtain ⟨h1, h2, -⟩ := hr k hk
      rcases hw with ⟨lt, hlt, rfl | rfl⟩ | ⟨lt, hlt, rfl | rfl⟩
      · have := h1 lt hlt; simp only [numVariables] at this; simp only [hlen]; omega
      · have := h1 lt hlt; simp only [numVariables] at this; simp only [hlen]; omega
      · have := h2 lt hlt; simp only [numVariables] at this; simp only [hlen]; omega
      · have := h2 lt hlt; simp only [numVariables] at this; simp only [hlen]; omega
    · simp only [List.mem_singleton] at hw
      subst hw; simp only [hlen]; omega
    · simp only [List.mem_flatMap, List.mem_range'_1, List.mem_cons, List.not_mem_nil,
        or_false] at hw
      obtain ⟨i, hi, rfl | rfl | rfl | rfl⟩ := hw <;> · simp only [hlen]; omega
  have hC : UpdIn cs.sapCEvalWrites (cs.sapNumVariables + 1) (D.lagrange t).length := by
    intro w hw
    rw [sapCEvalWrites, List.mem_append, List.mem_append] at hw
    simp only [sapDomainSize, numConstraints, sapNumVariables, numInputs, numVariables] at *
    rcases hw with (hw | hw) | hw
    · simp only [List.mem_flatMap, Prod.exists, List.mem_append, List.mem_cons, List.not_mem_nil,
        or_false, List.mem_map] at hw
      obtain ⟨k, i, hki, hw⟩ := hw
      obtain ⟨hi, hk⟩ := mem_zipIdx_lt hki
      obtain ⟨-, -, h3⟩ := hr k hk
      rcases hw with ⟨lt, hlt, rfl⟩ | rfl | rfl
      · have := h3 lt hlt; simp only [numVariables] at this; simp only [hlen]; omega
      · simp only [hlen]; omega
      · simp only [hlen]; omega
    · simp only [List.mem_singleton] at hw
      subst hw; simp only [hlen]; omega
    · simp only [List.mem_flatMap, List.mem_range'_1, List.mem_cons, List.not_mem_nil,
        or_false] at hw
      obtain ⟨i, hi, rfl | rfl | rfl⟩ := hw <;> · simp only [hlen]; omega
  obtain ⟨vA, At, eA1, eA2, eA3, lA, dA⟩ := evalMaps_eq_runEval (D.lagrange t)
    (cs.sapNumVariables + 1) cs.sapAWrites cs.sapAEvalWrites hA hA (fun _ _ => rfl)
  obtain ⟨vC, Ct, eC1, eC2, eC3, lC, dC⟩ := evalMaps_eq_runEval (D.lagrange t)
    (cs.sapNumVariables + 1) cs.sapCWrites cs.sapCEvalWrites hC hC (fun _ _ => rfl)
  refine ⟨⟨cs.sapNumVariables, D.m, cs.numInputs, vA, vC⟩,
    ⟨cs.sapNumVariables, D.m, cs.numInputs, t, At, Ct, powersFrom t 1 (D.m + 1), D.vanishing t⟩,
    ?_, ?_, ?_, rfl, rfl, rfl, rfl, lA, lC, rfl, rfl, ?_, ?_⟩
  · simp [sapInstance, eA1, eC1]
  · simp [sapEval, eA2, eC2]
  · simp [SapInstance.evalAt, eA3, eC3]
  · intro x; exact (dA x).trans (bil_sapA D.m cs _ x)
  · intro x; exact (dC x).trans (bil_sapC D.m cs _ x)

/-- the equations on the domain, spelled out -/
theorem sap_rows_iff (cs : R1CS F) (x : Nat → F) (m : Nat) (hm : cs.sapDomainSize ≤ m) :
    (∀ i < m, (cs.sapARow m x).getD i 0 * (cs.sapARow m x).getD i 0 = (cs.sapCRow m x).getD i 0) ↔
      (∀ ki ∈ cs.constraints.zipIdx,
        (formalValue ki.1.a x + formalValue ki.1.b x) * (formalValue ki.1.a x + formalValue ki.1.b x)
          = 4 * formalValue ki.1.c x + x (cs.numVariables + 1 + ki.2) ∧
        (formalValue ki.1.a x - formalValue ki.1.b x) * (formalValue ki.1.a x - formalValue ki.1.b x)
          = x (cs.numVariables + 1 + ki.2)) ∧ x 0 * x 0 = x 0 ∧
      (∀ i ∈ List.range' 1 cs.numInputs,
        (x i + x 0) * (x i + x 0) = 4 * x i + x (cs.numVariables + cs.numConstraints + i) ∧
        (x i - x 0) * (x i - x 0) = x (cs.numVariables + cs.numConstraints + i)) := by
  unfold sapARow sapCRow
  rw [forall₂_iff_getD]
  · rw [forall₂_append_iff (by rw [length_pairs, length_pairs]), forall₂_append_iff (by simp),
      forall₂_pairs, forall₂_pairs]
    simp
  · simp only [List.length_append, length_pairs, List.length_singleton]
  · simp only [sapDomainSize, numConstraints] at hm
    simp only [List.length_append, length_pairs, List.length_singleton, List.length_zipIdx,
      List.length_range']
    omega

/-! ### the SAP witness map -/

theorem sapExtend_spec (ks : List (R1CSConstraint F)) (base es : List F)
    (hk : ∀ k ∈ ks, IndicesLE k.a base.length ∧ IndicesLE k.b base.length) :
    sapExtend ks (base ++ es) = some (base ++ es ++ ks.map fun k =>
      (formalValue k.a (envOf base) - formalValue k.b (envOf base)) *
        (formalValue k.a (envOf base) - formalValue k.b (envOf base))) := by
  classical
  induction ks generalizing es with
  | nil => simp [sapExtend]
  | cons k ks ih =>
    obtain ⟨h1, h2⟩ := hk k (by simp)
    have h1' : IndicesLE k.a (base ++ es).length := fun t ht => by
      have := h1 t ht; simp; omega
    have h2' : IndicesLE k.b (base ++ es).length := fun t ht => by
      have := h2 t ht; simp; omega
    rw [sapExtend, LinComb.evaluate_eq_some h1', LinComb.evaluate_eq_some h2',
      formalValue_append_left _ h1, formalValue_append_left _ h2]
    simp only [Option.bind_eq_bind, Option.bind_some]
    rw [List.append_assoc, ih _ (fun k hk' => hk k (by simp [hk']))]
    simp

theorem sapExtendInputs_spec (is : List Nat) (base es : List F)
    (hi : ∀ i ∈ is, 1 ≤ i ∧ i ≤ base.length) :
    sapExtendInputs is (base ++ es) = some (base ++ es ++ is.map fun i =>
      (envOf base i - 1) * (envOf base i - 1)) := by
  induction is generalizing es with
  | nil => simp [sapExtendInputs]
  | cons i is ih =>
    obtain ⟨h1, h2⟩ := hi i (by simp)
    have hlt : i - 1 < base.length := by omega
    have e : (base ++ es)[i - 1]? = some (envOf base i) := by
      rw [List.getElem?_append_left hlt, List.getElem?_eq_getElem hlt]
      obtain ⟨j, rfl⟩ : ∃ j, i = j + 1 := ⟨i - 1, by omega⟩
      simp only [Nat.add_sub_cancel] at hlt
      simp [envOf, List.getElem?_eq_getElem hlt]
    rw [sapExtendInputs, e]
    simp only [Option.bind_eq_bind, Option.bind_some]
    rw [List.append_assoc, ih _ (fun j hj => hi j (by simp [hj]))]
    simp

/-- the assignment extended by the witness map -/
def sapFull (cs : R1CS F) (base : List F) : List F :=
  base ++ (cs.constraints.map fun k =>
      (formalValue k.a (envOf base) - formalValue k.b (envOf base)) *
        (formalValue k.a (envOf base) - formalValue k.b (envOf base))) ++
    (List.range' 1 cs.numInputs).map fun i => (envOf base i - 1) * (envOf base i - 1)

theorem length_sapFull (cs : R1CS F) (base : List F) (hb : base.length = cs.numVariables) :
    (cs.sapFull base).length = cs.sapNumVariables := by
  simp [sapFull, hb, sapNumVariables, numConstraints, Nat.add_assoc]

theorem sap_full_eq (cs : R1CS F) (hr : cs.WellRanged) (base : List F)
    (hb : base.length = cs.numVariables) :
    ((sapExtend cs.constraints base).bind fun full =>
      sapExtendInputs (List.range' 1 cs.numInputs) full) = some (cs.sapFull base) := by
  have e1 := sapExtend_spec cs.constraints base []
    (fun k hk => by rw [hb]; exact ⟨(hr k hk).1, (hr k hk).2.1⟩)
  rw [List.append_nil] at e1
  rw [e1, Option.bind_some, sapExtendInputs_spec]
  · rfl
  · intro i hi
    simp only [List.mem_range'_1, numInputs, numVariables] at hi hb
    omega

theorem envOf_sapFull_base (cs : R1CS F) (base : List F) {i : Nat} (hi : i ≤ base.length) :
    envOf (cs.sapFull base) i = envOf base i := by
  classical
  rw [sapFull, List.append_assoc, envOf_append_left _ _ hi]

theorem envOf_sapFull_extra (cs : R1CS F) (base : List F) (hb : base.length = cs.numVariables)
    (i : Nat) (hi : i < cs.constraints.length) :
    envOf (cs.sapFull base) (cs.numVariables + 1 + i) =
      (formalValue cs.constraints[i].a (envOf base) - formalValue cs.constraints[i].b (envOf base)) *
      (formalValue cs.constraints[i].a (envOf base) - formalValue cs.constraints[i].b (envOf base)) := by
  rw [show cs.numVariables + 1 + i = (cs.numVariables + i) + 1 by omega]
  simp only [envOf, sapFull, List.getD_eq_getElem?_getD]
  rw [List.append_assoc, List.getElem?_append_right (by omega),
    List.getElem?_append_left (by simp [hb, hi])]
  simp [hb, hi]

theorem envOf_sapFull_input (cs : R1CS F) (base : List F) (hb : base.length = cs.numVariables)
    (i : Nat) (h1 : 1 ≤ i) (hi : i ≤ cs.numInputs) :
    envOf (cs.sapFull base) (cs.numVariables + cs.numConstraints + i) =
      (envOf base i - 1) * (envOf base i - 1) := by
  obtain ⟨j, rfl⟩ : ∃ j, i = j + 1 := ⟨i - 1, by omega⟩
  rw [show cs.numVariables + cs.numConstraints + (j + 1)
    = (cs.numVariables + cs.numConstraints + j) + 1 by omega, envOf]
  simp only [sapFull, List.getD_eq_getElem?_getD]
  rw [List.getElem?_append_right (by simp [hb, numConstraints])]
  simp only [List.length_append, List.length_map, hb, numConstraints]
  rw [show cs.numVariables + cs.constraints.length + j - (cs.numVariables + cs.constraints.length)
    = j by omega]
  have hj : j < cs.numInputs := by omega
  simp [hj, add_comm 1 j]

/-- additive functional of the witness-map writes -/
def rowsVal (u : Nat → F) (l : List (Nat × F)) : F := (l.map fun w => w.2 * u w.1).sum

theorem rowsVal_append (u : Nat → F) (l l' : List (Nat × F)) :
    rowsVal u (l ++ l') = rowsVal u l + rowsVal u l' := by simp [rowsVal]

theorem envOf_succ_getElem? (full : List F) (i : Nat) (h1 : 1 ≤ i) (h : i ≤ full.length) :
    full[i - 1]? = some (envOf full i) := by
  obtain ⟨j, rfl⟩ : ∃ j, i = j + 1 := ⟨i - 1, by omega⟩
  have : j < full.length := by omega
  simp [envOf, List.getElem?_eq_getElem this]

theorem sapARows_spec (cs : R1CS F) (hr : cs.WellRanged) (full : List F) (m : Nat)
    (hf : full.length = cs.sapNumVariables) (hm : cs.sapDomainSize ≤ m) :
    ∃ r, cs.sapARows full = some r ∧
      runRows (List.replicate m 0) r = some (cs.sapARow m (envOf full)) := by
  have hle : ∀ lc : LinComb F, IndicesLE lc cs.numVariables → IndicesLE lc full.length :=
    fun lc h t ht => by have := h t ht; simp only [sapNumVariables] at hf; omega
  have e1 : (cs.constraints.zipIdx.mapM fun (k, i) => do
      let a ← LinComb.evaluate k.a full
      let b ← LinComb.evaluate k.b full
      pure [(2 * i, a), (2 * i, b), (2 * i + 1, a), (2 * i + 1, -b)])
      = some (cs.constraints.zipIdx.map fun ki =>
        [(2 * ki.2, formalValue ki.1.a (envOf full)), (2 * ki.2, formalValue ki.1.b (envOf full)),
         (2 * ki.2 + 1, formalValue ki.1.a (envOf full)),
         (2 * ki.2 + 1, -formalValue ki.1.b (envOf full))]) := by
    apply mapM_some
    rintro ⟨k, i⟩ hki
    have hk := hr k (mem_zipIdx_lt hki).2
    simp only
    rw [LinComb.evaluate_eq_some (hle _ hk.1), LinComb.evaluate_eq_some (hle _ hk.2.1)]
    rfl
  have e2 : ((List.range' 1 cs.numInputs).mapM fun i => do
      let x ← full[i - 1]?
      pure [(2 * cs.numConstraints + 2 * i - 1, x), (2 * cs.numConstraints + 2 * i - 1, 1),
        (2 * cs.numConstraints + 2 * i, x), (2 * cs.numConstraints + 2 * i, -1)])
      = some ((List.range' 1 cs.numInputs).map fun i =>
        [(2 * cs.numConstraints + 2 * i - 1, envOf full i), (2 * cs.numConstraints + 2 * i - 1, 1),
        (2 * cs.numConstraints + 2 * i, envOf full i), (2 * cs.numConstraints + 2 * i, -1)]) := by
    apply mapM_some
    intro i hi
    simp only [List.mem_range'_1] at hi
    rw [envOf_succ_getElem? full i (by omega) (by
      simp only [sapNumVariables] at hf; omega)]
    rfl
  refine ⟨_, by simp only [sapARows, e1, e2]; rfl, ?_⟩
  obtain ⟨l, e3, hl, hd⟩ := runRows_spec
    ((cs.constraints.zipIdx.map fun ki =>
        [(2 * ki.2, formalValue ki.1.a (envOf full)), (2 * ki.2, formalValue ki.1.b (envOf full)),
         (2 * ki.2 + 1, formalValue ki.1.a (envOf full)),
         (2 * ki.2 + 1, -formalValue ki.1.b (envOf full))]).flatten ++
      [(2 * cs.numConstraints, 1)] ++
      ((List.range' 1 cs.numInputs).map fun i =>
        [(2 * cs.numConstraints + 2 * i - 1, envOf full i), (2 * cs.numConstraints + 2 * i - 1, 1),
        (2 * cs.numConstraints + 2 * i, envOf full i), (2 * cs.numConstraints + 2 * i, -1)]).flatten)
    (List.replicate m (0 : F)) (by
      intro w hw
      simp only [sapDomainSize] at hm
      simp only [List.mem_append, List.mem_flatten, List.mem_map, Prod.exists, List.mem_singleton] at hw
      rw [List.length_replicate]
      rcases hw with (⟨l, ⟨k, i, hki, rfl⟩, hw⟩ | rfl) | ⟨l, ⟨i, hi, rfl⟩, hw⟩
      · have := (mem_zipIdx_lt hki).1
        have hc : cs.numConstraints = cs.constraints.length := rfl
        simp only [List.mem_cons, List.not_mem_nil, or_false] at hw
        rcases hw with rfl | rfl | rfl | rfl <;> · simp only; omega
      · simp only; omega
      · simp only [List.mem_range'_1] at hi
        simp only [List.mem_cons, List.not_mem_nil, or_false] at hw
        rcases hw with rfl | rfl | rfl | rfl <;> · simp only; omega)
  rw [e3]
  congr 1
  apply dot_ext
  · rw [hl, length_sapARow _ _ _ hm]; simp
  · intro u
    rw [hd, dot_replicate_zero, zero_add]
    change rowsVal u _ = _
    rw [rowsVal_append, rowsVal_append, sapARow, dot_padTo, dot_append, dot_append, add_assoc]
    congr 1
    · rw [← List.flatMap_def, additive_pairs (rowsVal u) rfl (rowsVal_append u) u
        _ (fun ki : R1CSConstraint F × Nat =>
          formalValue ki.1.a (envOf full) + formalValue ki.1.b (envOf full))
        (fun ki => formalValue ki.1.a (envOf full) - formalValue ki.1.b (envOf full))
        cs.constraints.zipIdx 0]
      · simp
      · intro j hj
        simp only [List.getElem_zipIdx, zero_add, rowsVal, List.map_cons, List.map_nil,
          List.sum_cons, List.sum_nil]
        ring
    · congr 1
      · simp [dot, length_pairs, numConstraints, rowsVal, envOf, mul_comm]
      · rw [← List.flatMap_def, additive_pairs (rowsVal u) rfl (rowsVal_append u) u
          _ (fun i => envOf full i + envOf full 0) (fun i => envOf full i - envOf full 0)
          (List.range' 1 cs.numInputs) (2 * cs.numConstraints + 1)]
        · congr 1
          funext i
          congr 1
          simp only [length_pairs, numConstraints, List.length_zipIdx, List.length_singleton]
          omega
        · intro j hj
          have e1 : 2 * cs.numConstraints + 2 * (1 + j) - 1 = 2 * cs.numConstraints + 1 + 2 * j := by
            omega
          have e2 : 2 * cs.numConstraints + 2 * (1 + j) = 2 * cs.numConstraints + 1 + 2 * j + 1 := by
            omega
          simp only [List.getElem_range', one_mul, e2, Nat.add_sub_cancel, rowsVal, List.map_cons, List.map_nil,
            List.sum_cons, List.sum_nil]
          rw [show envOf full 0 = 1 from rfl]
          ring

theorem sapCRows_spec (cs : R1CS F) (hr : cs.WellRanged) (full : List F) (m : Nat)
    (hf : full.length = cs.sapNumVariables) (hm : cs.sapDomainSize ≤ m) :
    ∃ r, cs.sapCRows full = some r ∧
      runRows (List.replicate m 0) r = some (cs.sapCRow m (envOf full)) := by
  have hle : ∀ lc : LinComb F, IndicesLE lc cs.numVariables → IndicesLE lc full.length :=
    fun lc h t ht => by have := h t ht; simp only [sapNumVariables] at hf; omega
  have e1 : (cs.constraints.zipIdx.mapM fun (k, i) => do
      let c ← LinComb.evaluate k.c full
      let e ← full[cs.numVariables + 1 + i - 1]?
      pure [(2 * i, timesFour c), (2 * i, e), (2 * i + 1, e)])
      = some (cs.constraints.zipIdx.map fun ki =>
        [(2 * ki.2, timesFour (formalValue ki.1.c (envOf full))),
         (2 * ki.2, envOf full (cs.numVariables + 1 + ki.2)),
         (2 * ki.2 + 1, envOf full (cs.numVariables + 1 + ki.2))]) := by
    apply mapM_some
    rintro ⟨k, i⟩ hki
    have hk := hr k (mem_zipIdx_lt hki).2
    have hi := (mem_zipIdx_lt hki).1
    simp only
    rw [LinComb.evaluate_eq_some (hle _ hk.2.2), envOf_succ_getElem? full _ (by omega) (by
      simp only [sapNumVariables, numConstraints] at hf; omega)]
    rfl
  have e2 : ((List.range' 1 cs.numInputs).mapM fun i => do
      let x ← full[i - 1]?
      let e ← full[cs.numVariables + cs.numConstraints + i - 1]?
      pure [(2 * cs.numConstraints + 2 * i - 1, timesFour x),
        (2 * cs.numConstraints + 2 * i - 1, e), (2 * cs.numConstraints + 2 * i, e)])
      = some ((List.range' 1 cs.numInputs).map fun i =>
        [(2 * cs.numConstraints + 2 * i - 1, timesFour (envOf full i)),
         (2 * cs.numConstraints + 2 * i - 1, envOf full (cs.numVariables + cs.numConstraints + i)),
         (2 * cs.numConstraints + 2 * i, envOf full (cs.numVariables + cs.numConstraints + i))]) := by
    apply mapM_some
    intro i hi
    simp only [List.mem_range'_1] at hi
    rw [envOf_succ_getElem? full i (by omega) (by simp only [sapNumVariables] at hf; omega),
      envOf_succ_getElem? full (cs.numVariables + cs.numConstraints + i) (by omega)
        (by simp only [sapNumVariables] at hf; omega)]
    rfl
  refine ⟨_, by simp only [sapCRows, e1, e2]; rfl, ?_⟩
  obtain ⟨l, e3, hl, hd⟩ := runRows_spec
    ((cs.constraints.zipIdx.map fun ki =>
        [(2 * ki.2, timesFour (formalValue ki.1.c (envOf full))),
         (2 * ki.2, envOf full (cs.numVariables + 1 + ki.2)),
         (2 * ki.2 + 1, envOf full (cs.numVariables + 1 + ki.2))]).flatten ++
      [(2 * cs.numConstraints, 1)] ++
      ((List.range' 1 cs.numInputs).map fun i =>
        [(2 * cs.numConstraints + 2 * i - 1, timesFour (envOf full i)),
         (2 * cs.numConstraints + 2 * i - 1, envOf full (cs.numVariables + cs.numConstraints + i)),
         (2 * cs.numConstraints + 2 * i, envOf full (cs.numVariables + cs.numConstraints + i))]).flatten)
    (List.replicate m (0 : F)) (by
      intro w hw
      simp only [sapDomainSize] at hm
      simp only [List.mem_append, List.mem_flatten, List.mem_map, Prod.exists, List.mem_singleton] at hw
      rw [List.length_replicate]
      rcases hw with (⟨l, ⟨k, i, hki, rfl⟩, hw⟩ | rfl) | ⟨l, ⟨i, hi, rfl⟩, hw⟩
      · have := (mem_zipIdx_lt hki).1
        have hc : cs.numConstraints = cs.constraints.length := rfl
        simp only [List.mem_cons, List.not_mem_nil, or_false] at hw
        rcases hw with rfl | rfl | rfl <;> · simp only; omega
      · simp only; omega
      · simp only [List.mem_range'_1] at hi
        simp only [List.mem_cons, List.not_mem_nil, or_false] at hw
        rcases hw with rfl | rfl | rfl <;> · simp only; omega)
  rw [e3]
  congr 1
  apply dot_ext
  · rw [hl, length_sapCRow _ _ _ hm]; simp
  · intro u
    rw [hd, dot_replicate_zero, zero_add]
    change rowsVal u _ = _
    rw [rowsVal_append, rowsVal_append, sapCRow, dot_padTo, dot_append, dot_append, add_assoc]
    congr 1
    · rw [← List.flatMap_def, additive_pairs (rowsVal u) rfl (rowsVal_append u) u
        _ (fun ki : R1CSConstraint F × Nat =>
          4 * formalValue ki.1.c (envOf full) + envOf full (cs.numVariables + 1 + ki.2))
        (fun ki => envOf full (cs.numVariables + 1 + ki.2))
        cs.constraints.zipIdx 0]
      · simp
      · intro j hj
        simp only [List.getElem_zipIdx, zero_add, rowsVal, List.map_cons, List.map_nil,
          List.sum_cons, List.sum_nil, timesFour_eq]
        ring
    · congr 1
      · simp [dot, length_pairs, numConstraints, rowsVal, envOf, mul_comm]
      · rw [← List.flatMap_def, additive_pairs (rowsVal u) rfl (rowsVal_append u) u
          _ (fun i => 4 * envOf full i + envOf full (cs.numVariables + cs.numConstraints + i))
          (fun i => envOf full (cs.numVariables + cs.numConstraints + i))
          (List.range' 1 cs.numInputs) (2 * cs.numConstraints + 1)]
        · congr 1
          funext i
          congr 1
          simp only [length_pairs, numConstraints, List.length_zipIdx, List.length_singleton]
          omega
        · intro j hj
          have e1 : 2 * cs.numConstraints + 2 * (1 + j) - 1 = 2 * cs.numConstraints + 1 + 2 * j := by
            omega
          have e2 : 2 * cs.numConstraints + 2 * (1 + j) = 2 * cs.numConstraints + 1 + 2 * j + 1 := by
            omega
          simp only [List.getElem_range', one_mul, e2, Nat.add_sub_cancel, rowsVal, List.map_cons, List.map_nil,
            List.sum_cons, List.sum_nil, timesFour_eq]
          ring

/-- the extended assignment satisfies the equations on the domain -/
theorem sap_rows_full (cs : R1CS F) (hr : cs.WellRanged) (p w : List F)
    (hb : (p ++ w).length = cs.numVariables) (m : Nat) (hm : cs.sapDomainSize ≤ m)
    (hsat : cs.Sat p w) :
    ∀ i < m, (cs.sapARow m (envOf (cs.sapFull (p ++ w)))).getD i 0 *
      (cs.sapARow m (envOf (cs.sapFull (p ++ w)))).getD i 0
      = (cs.sapCRow m (envOf (cs.sapFull (p ++ w)))).getD i 0 := by
  rw [sap_rows_iff cs _ m hm]
  have hfv : ∀ lc : LinComb F, IndicesLE lc cs.numVariables →
      formalValue lc (envOf (cs.sapFull (p ++ w))) = formalValue lc (envOf (p ++ w)) := by
    classical
    intro lc h
    rw [sapFull, List.append_assoc, formalValue_append_left _ (by rw [hb]; exact h)]
  refine ⟨?_, by simp [envOf], ?_⟩
  · rintro ⟨k, i⟩ hki
    obtain ⟨hi, hk⟩ := mem_zipIdx_lt hki
    obtain ⟨-, hki'⟩ := List.mem_zipIdx' hki
    simp only at hki' ⊢
    have hs := hsat k hk
    rw [envOf_sapFull_extra cs _ hb i hi, ← hki', hfv _ (hr k hk).1, hfv _ (hr k hk).2.1,
      hfv _ (hr k hk).2.2, ← hs]
    constructor <;> ring
  · intro i hi
    simp only [List.mem_range'_1] at hi
    rw [envOf_sapFull_input cs _ hb i (by omega) (by omega),
      envOf_sapFull_base cs _ (by rw [hb]; simp only [numVariables, numInputs] at *; omega)]
    rw [show envOf (cs.sapFull (p ++ w)) 0 = 1 from rfl]
    exact ⟨by ring, rfl⟩

theorem sapWitness_spec (h : D.Lawful) (cs : R1CS F) (hr : cs.WellRanged) (p w : List F)
    (hp : p.length = cs.primaryInputSize) (hw : w.length = cs.auxiliaryInputSize)
    (hm : cs.sapDomainSize ≤ D.m) (hsat : cs.Sat p w) (d1 d2 : F) :
    ∃ H, cs.sapWitness D p w d1 d2 = some ⟨cs.sapNumVariables, D.m, cs.numInputs, d1, d2,
        cs.sapFull (p ++ w), H⟩ ∧ H.length = D.m + 1 ∧
      ∀ t, (dot (cs.sapARow D.m (envOf (cs.sapFull (p ++ w)))) (fun i => (D.lagrange t).getD i 0)
            + d1 * D.vanishing t) *
          (dot (cs.sapARow D.m (envOf (cs.sapFull (p ++ w)))) (fun i => (D.lagrange t).getD i 0)
            + d1 * D.vanishing t) -
          (dot (cs.sapCRow D.m (envOf (cs.sapFull (p ++ w)))) (fun i => (D.lagrange t).getD i 0)
            + d2 * D.vanishing t) = evalPoly H t * D.vanishing t := by
  have hfull : (p ++ w).length = cs.numVariables := by simp [hp, hw, numVariables]
  have efull := sap_full_eq cs hr (p ++ w) hfull
  obtain ⟨ra, ea1, ea2⟩ := sapARows_spec cs hr (cs.sapFull (p ++ w)) D.m
    (length_sapFull cs _ hfull) hm
  obtain ⟨rc, ec1, ec2⟩ := sapCRows_spec cs hr (cs.sapFull (p ++ w)) D.m
    (length_sapFull cs _ hfull) hm
  have hrows := sap_rows_full cs hr p w hfull D.m hm hsat
  set full := cs.sapFull (p ++ w) with hfulldef
  set a := cs.sapARow D.m (envOf full) with ha
  set c := cs.sapCRow D.m (envOf full) with hc
  have la : a.length = D.m := length_sapARow _ _ _ hm
  have lc : c.length = D.m := length_sapCRow _ _ _ hm
  have lia := h.inverse_length a la
  have lic := h.inverse_length c lc
  set h0 := (D.inverseFft a).map (fun a => d1 * a + d1 * a) ++ [0] with hh0
  have lh0 : h0.length = D.m + 1 := by simp [hh0, lia]
  have eh0 : ∀ x, evalPoly h0 x = (d1 + d1) * evalPoly (D.inverseFft a) x := by
    intro x
    have : (fun a => d1 * a + d1 * a) = fun a => (d1 + d1) * a := by funext a; ring
    rw [hh0, evalPoly_append, this, evalPoly_map_mul]
    simp
  obtain ⟨ls, es⟩ := subHead_spec h0 d2 (by intro h; rw [h] at lh0; simp at lh0)
  have lz := h.addPolyZ_length (d1 * d1) (subHead h0 d2) (by omega)
  have ez := h.addPolyZ_eq (d1 * d1) (subHead h0 d2) (by omega)
  obtain ⟨lca, eca⟩ := toCoset_getD h (D.inverseFft a) lia
  obtain ⟨lcc, ecc⟩ := toCoset_getD h (D.inverseFft c) lic
  set num := List.zipWith (· - ·) ((toCoset D (D.inverseFft a)).map fun a => a * a)
    (toCoset D (D.inverseFft c)) with hnum
  have lnum : num.length = D.m := by simp [hnum, lca, lcc]
  obtain ⟨lH, eH⟩ := finishH_spec h (D.addPolyZ (d1 * d1) (subHead h0 d2)) num
    (interp D a * interp D a - interp D c) lz
    (degree_sub_lt' (degree_mul_lt (interp_degree h a la) (interp_degree h a la))
      (degree_lt_two_mul (interp_degree h c lc)))
    (by
      intro i hi
      rw [eval_sub, eval_mul, interp_point h a la i hi, interp_point h c lc i hi, hrows i hi,
        sub_self])
    lnum
    (by
      intro i hi
      simp only [eval_sub, eval_mul, interp, eval_toPoly]
      rw [← eca i hi, ← ecc i hi]
      rw [List.getD_eq_getElem _ _ (by omega), List.getD_eq_getElem _ _ (by omega),
        List.getD_eq_getElem _ _ (by omega)]
      simp [hnum])
  refine ⟨finishH D (D.addPolyZ (d1 * d1) (subHead h0 d2)) num, ?_, lH, fun t => ?_⟩
  · obtain ⟨f1, hf1, hf2⟩ := Option.bind_eq_some_iff.1 efull
    simp only [sapWitness, hf1, hf2, ea1, ec1, Option.bind_eq_bind, Option.bind_some, ea2, ec2,
      Option.pure_def]
    rfl
  · rw [eH, ez, es, eh0]
    have i1 := interp_eval h a la t
    have i3 := interp_eval h c lc t
    simp only [eval_sub, eval_mul, i1, i3]
    rw [interp, eval_toPoly] at i1 i3
    rw [i1]
    ring

end R1CS

theorem SapEval.isSatisfied_iff [DecidableEq F] (D : EvalDomain F) (q : SapEval F)
    (w : SapWitness F) :
    q.isSatisfied D w = true ↔
      q.numVariables = w.numVariables ∧ q.degree = w.degree ∧ q.numInputs = w.numInputs ∧
      q.numVariables = w.coefficientsForACs.length ∧
      q.degree + 1 = w.coefficientsForH.length ∧
      q.At.length = q.numVariables + 1 ∧ q.Ct.length = q.numVariables + 1 ∧
      q.Ht.length = q.degree + 1 ∧
      q.Zt = D.vanishing q.t ∧
      ansOf q.At w.d1 q.Zt w.coefficientsForACs * ansOf q.At w.d1 q.Zt w.coefficientsForACs
        - ansOf q.Ct w.d2 q.Zt w.coefficientsForACs
        = innerProduct q.Ht w.coefficientsForH * q.Zt := by
  unfold SapEval.isSatisfied
  simp only [ne_eq, zero_add, ite_not]
  by_cases h1 : q.numVariables = w.numVariables <;> simp only [h1, if_true, if_false, true_and, false_and, Bool.false_eq_true]
  by_cases h2 : q.degree = w.degree <;> simp only [h2, if_true, if_false, true_and, false_and, Bool.false_eq_true]
  by_cases h3 : q.numInputs = w.numInputs <;> simp only [h3, if_true, if_false, true_and, false_and, Bool.false_eq_true]
  by_cases h4 : w.numVariables = w.coefficientsForACs.length <;> simp only [h4, if_true, if_false, true_and, false_and, Bool.false_eq_true]
  by_cases h5 : w.degree + 1 = w.coefficientsForH.length <;> simp only [h5, if_true, if_false, true_and, false_and, Bool.false_eq_true]
  by_cases h6 : q.At.length = w.coefficientsForACs.length + 1 <;>
    by_cases h8 : q.Ct.length = w.coefficientsForACs.length + 1 <;>
    by_cases h9 : q.Ht.length = w.coefficientsForH.length <;>
    by_cases h10 : q.Zt = D.vanishing q.t <;> simp_all

end Crypto3Zk
