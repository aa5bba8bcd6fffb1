import Verif.Lemmas.LinearCombination
import Mathlib.Algebra.Field.Rat
import Mathlib.Data.List.Sort

/-!
# Properties C01–C04, C16: linear combinations and R1CS
-/

set_option linter.unusedSectionVars false

namespace Crypto3Zk

open LinComb

variable {F : Type*} [Field F]

/-! ## C01 -/

/-- C01 (sum): evaluating `x + y` is defined exactly when both evaluations are, and gives their
sum, for every pair of term lists and every assignment. -/
theorem C01_evaluate_add (x y : LinComb F) (a : List F) :
    evaluate (add x y) a =
      (evaluate x a).bind fun u => (evaluate y a).map fun v => u + v := by
  by_cases hx : IndicesLE x a.length <;> by_cases hy : IndicesLE y a.length
  · rw [evaluate_eq_some hx, evaluate_eq_some hy,
      evaluate_eq_some ((indicesLE_add x y _).2 ⟨hx, hy⟩), formalValue_add]; rfl
  all_goals
    first
    | rw [evaluate_eq_none (fun h => hy ((indicesLE_add x y _).1 h).2), evaluate_eq_none hy]
      cases evaluate x a <;> rfl
    | rw [evaluate_eq_none (fun h => hx ((indicesLE_add x y _).1 h).1), evaluate_eq_none hx]; rfl

/-- C01 (scalar multiple). -/
theorem C01_evaluate_scale (x : LinComb F) (c : F) (a : List F) :
    evaluate (scale x c) a = (evaluate x a).map fun u => u * c := by
  by_cases hx : IndicesLE x a.length
  · rw [evaluate_eq_some hx, evaluate_eq_some ((indicesLE_scale x c _).2 hx), formalValue_scale]
    rfl
  · rw [evaluate_eq_none hx, evaluate_eq_none (fun h => hx ((indicesLE_scale x c _).1 h))]; rfl

/-- C01 (negation). -/
theorem C01_evaluate_neg (x : LinComb F) (a : List F) :
    evaluate (neg x) a = (evaluate x a).map fun u => -u := by
  unfold neg; rw [C01_evaluate_scale]; congr; funext u; ring

/-- C01 (difference). -/
theorem C01_evaluate_sub (x y : LinComb F) (a : List F) :
    evaluate (sub x y) a =
      (evaluate x a).bind fun u => (evaluate y a).map fun v => u - v := by
  unfold sub
  rw [C01_evaluate_add, C01_evaluate_neg]
  cases evaluate x a <;> cases evaluate y a <;> simp [sub_eq_add_neg]

/-- C01 (variable plus combination, `linear_variable::operator+`/`operator-`). -/
theorem C01_evaluate_varAdd (i : Nat) (x : LinComb F) (a : List F) (hi : i ≤ a.length) :
    evaluate (varAdd i x) a = (evaluate x a).map (fun u => envOf a i + u) ∧
    evaluate (varSub i x) a = (evaluate x a).map (fun u => envOf a i - u) := by
  have key : ∀ y : LinComb F, evaluate (varAdd i y) a =
      (evaluate y a).map (fun u => envOf a i + u) := by
    intro y
    have : (varAdd i y).Perm (ofVar i :: y) := by
      unfold varAdd; exact List.perm_append_comm (l₂ := [ofVar i])
    rw [evaluate_perm this, evaluate_cons]
    simp only [ofVar, readVar_eq_some hi, Option.bind_some, mul_one]
  refine ⟨key x, ?_⟩
  unfold varSub; rw [key, C01_evaluate_neg]
  cases evaluate x a <;> simp [sub_eq_add_neg]

/-- C01 (constant plus/minus combination). -/
theorem C01_evaluate_const (c : F) (x : LinComb F) (a : List F) :
    evaluate (constAdd c x) a = (evaluate x a).map (fun u => c + u) ∧
    evaluate (constSub c x) a = (evaluate x a).map (fun u => c - u) := by
  have h : evaluate (ofConst c) a = some c := by
    simp [ofConst, evaluate_cons, evaluate_nil, termScale, ofVar, readVar]
  constructor
  · unfold constAdd; rw [C01_evaluate_add, h]; rfl
  · unfold constSub; rw [C01_evaluate_sub, h]; rfl

/-- C01 (canonical form is preserved by addition and subtraction). -/
theorem C01_canonical (x y : LinComb F) (c : F) (hx : Canonical x) (hy : Canonical y) :
    Canonical (add x y) ∧ Canonical (sub x y) ∧ Canonical (scale x c) := by
  have hs : ∀ (z : LinComb F) (c : F), Canonical z → Canonical (scale z c) := by
    intro z c hz
    unfold Canonical scale at *
    rw [List.pairwise_map]
    exact hz
  exact ⟨canonical_add hx hy, canonical_add hx (hs y _ hy), hs x c hx⟩

-- Non-vacuity: 3 + 2·x1 and 5·x1 + x2 on (10, 20).
example : evaluate (add [⟨0, 3⟩, ⟨1, 2⟩] [⟨1, 5⟩, ⟨2, 1⟩] : LinComb ℚ) [10, 20] = some 93 := by
  rw [C01_evaluate_add]
  norm_num [evaluate_cons, evaluate_nil, readVar]
example : Canonical ([⟨0, 3⟩, ⟨1, 2⟩] : LinComb ℚ) := by simp [Canonical]

/-! ## C02 -/

/-- C02: whatever order an unstable sort leaves equal indices in, the combination built from a
term vector has strictly increasing indices and the value of the given formal sum. -/
theorem C02_ofTerms (sort : List (LinearTerm F) → List (LinearTerm F)) (hs : IsIndexSort sort)
    (all : List (LinearTerm F)) :
    Canonical (ofTerms sort all) ∧
    (∀ x : Nat → F, formalValue (ofTerms sort all) x = formalValue all x) ∧
    (∀ a : List F, evaluate (ofTerms sort all) a = evaluate all a) := by
  have hcase : ofTerms sort all = [] ∧ all = [] ∨
      ∃ c cs, sort all = c :: cs ∧ ofTerms sort all = mergeRuns c cs := by
    unfold ofTerms
    cases all with
    | nil => simp
    | cons t ts =>
      right
      cases h : sort (t :: ts) with
      | nil => have := (hs (t :: ts)).1.length_eq; simp [h] at this
      | cons c cs => exact ⟨c, cs, rfl, by simp⟩
  rcases hcase with ⟨h1, h2⟩ | ⟨c, cs, h1, h2⟩
  · rw [h1, h2]; simp [Canonical]
  · have hp := (hs all).1
    have hsorted := (hs all).2
    rw [h1] at hp hsorted
    have hval : ∀ x : Nat → F, formalValue (ofTerms sort all) x = formalValue all x := by
      intro x
      rw [h2, formalValue_mergeRuns, ← formalValue_cons]
      unfold formalValue
      rw [(hp.map _).sum_eq]
    refine ⟨h2 ▸ canonical_mergeRuns c cs hsorted, hval, ?_⟩
    intro a
    have hidx : ∀ n, IndicesLE (ofTerms sort all) n ↔ IndicesLE all n := by
      intro n
      rw [indicesLE_iff, indicesLE_iff, h2]
      simp only [mergeRuns_index_mem]
      constructor
      · rintro h i ⟨t, ht, rfl⟩
        rcases List.mem_cons.1 (hp.mem_iff.2 ht) with rfl | ht
        · exact h _ (Or.inl rfl)
        · exact h _ (Or.inr ⟨t, ht, rfl⟩)
      · rintro h i (rfl | ⟨t, ht, rfl⟩)
        · exact h _ ⟨c, hp.mem_iff.1 (by simp), rfl⟩
        · exact h _ ⟨t, hp.mem_iff.1 (by simp [ht]), rfl⟩
    by_cases hr : IndicesLE all a.length
    · rw [evaluate_eq_some hr, evaluate_eq_some ((hidx _).2 hr), hval]
    · rw [evaluate_eq_none hr, evaluate_eq_none (fun h => hr ((hidx _).1 h))]

/-- Non-vacuity: insertion sort by index meets the contract, so such a `sort` exists. -/
theorem insertionSort_isIndexSort :
    IsIndexSort (F := F) (List.insertionSort fun s t => s.index ≤ t.index) := by
  intro l
  have : Std.Total (fun s t : LinearTerm F => s.index ≤ t.index) := ⟨fun a b => Nat.le_total _ _⟩
  have : IsTrans (LinearTerm F) (fun s t => s.index ≤ t.index) := ⟨fun a b c => Nat.le_trans⟩
  exact ⟨List.perm_insertionSort _ l, List.pairwise_insertionSort _ l⟩

example : ofTerms (List.insertionSort fun s t => s.index ≤ t.index)
    ([⟨2, 1⟩, ⟨0, 4⟩, ⟨2, 5⟩] : List (LinearTerm ℚ)) = [⟨0, 4⟩, ⟨2, 6⟩] := by
  norm_num [ofTerms, List.insertionSort, List.orderedInsert, mergeRuns]

/-! ## C03 -/

variable [DecidableEq F]

/-- C03 (soundness): combinations that compare equal have the same value everywhere. -/
theorem C03_eq_sound (sort : List (LinearTerm F) → List (LinearTerm F)) (hs : IsIndexSort sort)
    (x y : LinComb F) (h : beq sort x y = true) :
    (∀ a : List F, evaluate x a = evaluate y a) ∧
    (∀ e : Nat → F, formalValue x e = formalValue y e) := by
  have h' : sort x = sort y := by simpa [beq] using h
  have hp : x.Perm y := (hs x).1.symm.trans (h' ▸ (hs y).1)
  refine ⟨fun a => evaluate_perm hp, fun e => ?_⟩
  unfold formalValue
  rw [(hp.map _).sum_eq]

/-- C03 (reflexivity, symmetry, transitivity). -/
theorem C03_eq_equivalence (sort : List (LinearTerm F) → List (LinearTerm F))
    (x y z : LinComb F) :
    beq sort x x = true ∧ (beq sort x y = true → beq sort y x = true) ∧
    (beq sort x y = true → beq sort y z = true → beq sort x z = true) := by
  simp only [beq, decide_eq_true_eq]
  exact ⟨trivial, fun h => h.symm, fun h1 h2 => h1.trans h2⟩

/-- C03 (completeness when no variable occurs twice): equality ignores the order of the terms. -/
theorem C03_eq_complete (sort : List (LinearTerm F) → List (LinearTerm F)) (hs : IsIndexSort sort)
    (x y : LinComb F) (hp : x.Perm y) (hnd : (x.map (·.index)).Nodup) :
    beq sort x y = true := by
  have hpp : (sort x).Perm (sort y) := (hs x).1.trans (hp.trans (hs y).1.symm)
  have hnd' : ((sort x).map (·.index)).Nodup := ((hs x).1.map _).nodup_iff.2 hnd
  have : sort x = sort y := by
    refine List.Perm.eq_of_pairwise ?_ (hs x).2 (hs y).2 hpp
    intro s t hs' ht' h1 h2
    have ht'' : t ∈ sort x := hpp.mem_iff.2 ht'
    exact List.inj_on_of_nodup_map hnd' hs' ht'' (by omega)
  simpa [beq] using this

/-- Without that guard the order matters: `1·x1 + 2·x1` differs from `2·x1 + 1·x1` for a stable
sort, although the values agree. -/
theorem C03_eq_not_order_independent :
    beq (List.insertionSort fun s t => s.index ≤ t.index)
      ([⟨1, 1⟩, ⟨1, 2⟩] : LinComb ℚ) [⟨1, 2⟩, ⟨1, 1⟩] = false := by
  norm_num [beq, List.insertionSort, List.orderedInsert]

example : ([⟨2, 1⟩, ⟨1, 2⟩] : LinComb ℚ).Perm [⟨1, 2⟩, ⟨2, 1⟩] ∧
    ((([⟨2, 1⟩, ⟨1, 2⟩] : LinComb ℚ)).map (·.index)).Nodup :=
  ⟨List.Perm.swap _ _ _, by decide⟩

/-! ## C04 -/

/-- C04 (partial). On a non-empty combination the check accepts exactly the combinations with
strictly increasing indices all *strictly below* the argument. The full property asks for
"at most `n`" (variables are numbered `0..n`) and for a definite answer on the empty combination;
both fail, see `C04_rejects_last_variable` and `C04_empty_is_undefined`. -/
theorem C04_isValid_partial (x : LinComb F) (n : Nat) (hne : x ≠ []) :
    isValid x n = some (decide (Canonical x ∧ ∀ t ∈ x, t.index < n)) := by
  unfold isValid
  cases hl : x.getLast? with
  | none => simp at hl; exact absurd hl hne
  | some l =>
    by_cases hc : strictlySorted x = true
    · have hc' := (strictlySorted_iff x).1 hc
      have hle := canonical_le_last hc' hl
      have hmem : l ∈ x := List.mem_of_getLast? hl
      simp only [hc, if_true]
      by_cases hn : l.index ≥ n
      · rw [if_pos hn]
        congr; symm; rw [decide_eq_false_iff_not]
        rintro ⟨_, h⟩; have := h l hmem; omega
      · rw [if_neg hn]
        congr; symm; rw [decide_eq_true_eq]
        exact ⟨hc', fun t ht => by have := hle t ht; omega⟩
    · rw [if_neg hc]
      congr; symm; rw [decide_eq_false_iff_not]
      rintro ⟨h, _⟩; exact hc ((strictlySorted_iff x).2 h)

/-- C04 finding: with `n` variables, every combination that uses the last variable `x_n` is
rejected although it is in range. -/
theorem C04_rejects_last_variable (x : LinComb F) (n : Nat) (t : LinearTerm F) (ht : t ∈ x)
    (hn : t.index = n) : isValid x n = some false := by
  have hne : x ≠ [] := List.ne_nil_of_mem ht
  rw [C04_isValid_partial x n hne]
  congr; rw [decide_eq_false_iff_not]
  rintro ⟨_, h⟩; have := h t ht; omega

/-- C04 finding: the check is undefined on the empty combination (it decrements `end()`). -/
theorem C04_empty_is_undefined (n : Nat) : isValid ([] : LinComb F) n = none := rfl

/-- C04 consequence: an R1CS accepted by `is_valid` is well ranged, so evaluation on an
assignment of the right length never reads out of bounds. -/
theorem C04_r1cs_valid_sound (cs : R1CS F) (h : cs.isValid = some true) : cs.WellRanged := by
  have key : ∀ n (ks : List (R1CSConstraint F)), R1CS.validLoop n ks = some true →
      ∀ k ∈ ks, IndicesLE k.a n ∧ IndicesLE k.b n ∧ IndicesLE k.c n := by
    intro n ks
    have one : ∀ x : LinComb F, isValid x n = some true → IndicesLE x n := by
      intro x hx
      have hne : x ≠ [] := by rintro rfl; simp [C04_empty_is_undefined] at hx
      rw [C04_isValid_partial x n hne] at hx
      simp only [Option.some.injEq, decide_eq_true_eq] at hx
      exact fun t ht => (hx.2 t ht).le
    induction ks with
    | nil => simp
    | cons k ks ih =>
      intro h
      unfold R1CS.validLoop at h
      split at h <;> try simp at h
      rename_i ha
      split at h <;> try simp at h
      rename_i hb
      split at h <;> try simp at h
      rename_i hc
      intro k' hk'
      rcases List.mem_cons.1 hk' with rfl | hk'
      · exact ⟨one _ ha, one _ hb, one _ hc⟩
      · exact ih h k' hk'
  unfold R1CS.isValid at h
  split at h
  · simp at h
  · exact key _ _ h

example : isValid ([⟨0, 1⟩, ⟨1, 1⟩] : LinComb ℚ) 2 = some true := by decide
-- the constraint system  x1 * x1 = x1  over one variable is rejected by its own validity check
example : (⟨1, 0, [⟨[⟨1, 1⟩], [⟨1, 1⟩], [⟨1, 1⟩]⟩]⟩ : R1CS ℚ).isValid = some false := by decide

/-! ## C16 -/

theorem satisfiedLoop_swap (full : List F) (ks : List (R1CSConstraint F)) :
    R1CS.satisfiedLoop full (ks.map fun k => ⟨k.b, k.a, k.c⟩) = R1CS.satisfiedLoop full ks := by
  induction ks with
  | nil => rfl
  | cons k ks ih =>
    simp only [List.map_cons, R1CS.satisfiedLoop, ih]
    cases evaluate k.a full <;> cases evaluate k.b full <;> cases evaluate k.c full <;> try rfl
    simp only [mul_comm]

/-- Meaning of `is_satisfied`: on a well-ranged system and an assignment of the declared length,
it is defined and decides exactly the mathematical notion of satisfaction. -/
theorem C16_isSatisfied_iff (cs : R1CS F) (hr : cs.WellRanged) (p w : List F)
    (hlen : p.length + w.length = cs.numVariables) :
    (cs.isSatisfied p w = some true ↔ cs.Sat p w) ∧
    (cs.isSatisfied p w = some false ↔ ¬ cs.Sat p w) := by
  have hl : (p ++ w).length = cs.numVariables := by simp [hlen]
  unfold R1CS.isSatisfied R1CS.Sat
  have hk := hr
  unfold R1CS.WellRanged at hk
  rw [← hl] at hk
  generalize p ++ w = full at *
  generalize cs.constraints = ks at *
  clear hr hl hlen
  induction ks with
  | nil => simp [R1CS.satisfiedLoop]
  | cons k ks ih =>
    obtain ⟨ha, hb, hc⟩ := hk k (by simp)
    have ih' := ih (fun k' hk' => hk k' (by simp [hk']))
    simp only [R1CS.satisfiedLoop, evaluate_eq_some ha, evaluate_eq_some hb, evaluate_eq_some hc,
      List.mem_cons, forall_eq_or_imp]
    by_cases he : formalValue k.a (envOf full) * formalValue k.b (envOf full)
        = formalValue k.c (envOf full)
    · simp only [he, ne_eq, not_true_eq_false, if_false, true_and]; exact ih'
    · simp [he]

/-- C16: the swap never changes the verdict of `is_satisfied`, on any inputs, nor any size. -/
theorem C16_swap_preserves (cs cs' : R1CS F) (h : cs.swapABIfBeneficial = some cs') :
    (∀ p w : List F, cs'.isSatisfied p w = cs.isSatisfied p w) ∧
    cs'.numInputs = cs.numInputs ∧ cs'.numVariables = cs.numVariables ∧
    cs'.numConstraints = cs.numConstraints := by
  unfold R1CS.swapABIfBeneficial at h
  split at h
  · split at h <;> simp only [Option.some.injEq] at h <;> subst h
    · refine ⟨fun p w => ?_, rfl, rfl, by simp [R1CS.numConstraints]⟩
      exact satisfiedLoop_swap _ _
    · exact ⟨fun _ _ => rfl, rfl, rfl, rfl⟩
  · simp at h

/-- C16: the swap is defined (no out-of-bounds write) on every well-ranged system. -/
theorem C16_swap_defined (cs : R1CS F) (hr : cs.WellRanged) :
    ∃ cs', cs.swapABIfBeneficial = some cs' := by
  have key : ∀ (n : Nat) (lc : LinComb F) (t : List Bool), t.length = n + 1 → IndicesLE lc n →
      ∃ t', R1CS.touchAll t lc = some t' ∧ t'.length = n + 1 := by
    intro n lc
    induction lc with
    | nil => intro t ht _; exact ⟨t, rfl, ht⟩
    | cons x xs ih =>
      intro t ht hx
      have h1 : x.index < t.length := by have := hx x (by simp); omega
      obtain ⟨t', h2, h3⟩ := ih (t.set x.index true) (by simp [ht]) (fun s hs => hx s (by simp [hs]))
      refine ⟨t', ?_, h3⟩
      unfold R1CS.touchAll at h2 ⊢
      rw [List.foldlM_cons, if_pos h1]
      exact h2
  have key2 : ∀ (side : R1CSConstraint F → LinComb F) (ks : List (R1CSConstraint F)) (n : Nat)
      (t : List Bool), t.length = n + 1 → (∀ k ∈ ks, IndicesLE (side k) n) →
      ∃ t', ks.foldlM (fun t k => R1CS.touchAll t (side k)) t = some t' := by
    intro side ks n
    induction ks with
    | nil => intro t _ _; exact ⟨t, rfl⟩
    | cons k ks ih =>
      intro t ht hk
      obtain ⟨t1, h1, h2⟩ := key n (side k) t ht (hk k (by simp))
      obtain ⟨t2, h3⟩ := ih t1 h2 (fun k' hk' => hk k' (by simp [hk']))
      refine ⟨t2, ?_⟩
      rw [List.foldlM_cons, h1]; exact h3
  obtain ⟨tA, hA⟩ := key2 R1CSConstraint.a cs.constraints cs.numVariables
    (List.replicate (cs.numVariables + 1) false) (by simp) (fun k hk => (hr k hk).1)
  obtain ⟨tB, hB⟩ := key2 R1CSConstraint.b cs.constraints cs.numVariables
    (List.replicate (cs.numVariables + 1) false) (by simp) (fun k hk => (hr k hk).2.1)
  unfold R1CS.swapABIfBeneficial
  unfold R1CS.touchedBy
  rw [hA, hB]
  simp only
  split <;> exact ⟨_, rfl⟩

-- Non-vacuity: B touches two variables, A one, so the sides are really exchanged.
example : (⟨2, 0, [⟨[⟨1, 1⟩], [⟨1, 1⟩, ⟨2, 1⟩], [⟨0, 6⟩]⟩]⟩ : R1CS ℚ).swapABIfBeneficial.map
    (fun c => c.constraints.map fun k => k.a.length) = some [2] := by decide
example : (⟨2, 0, [⟨[⟨1, 1⟩], [⟨1, 1⟩, ⟨2, 1⟩], [⟨0, 6⟩]⟩]⟩ : R1CS ℚ).WellRanged := by
  simp [R1CS.WellRanged, IndicesLE, R1CS.numVariables]

end Crypto3Zk
