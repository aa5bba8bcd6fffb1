import Verif.Spec.LinearCombination
import Mathlib.Tactic.Ring
import Mathlib.Tactic.LinearCombination
import Mathlib.Algebra.BigOperators.Ring.List

set_option linter.unusedSectionVars false

namespace Crypto3Zk
namespace LinComb

variable {F : Type*} [Field F]

theorem foldlM_eval_acc (a : List F) (lc : LinComb F) (acc : F) :
    lc.foldlM (fun acc lt => (readVar a lt.index).map fun v => acc + v * lt.coeff) acc
      = (lc.foldlM (fun acc lt => (readVar a lt.index).map fun v => acc + v * lt.coeff) (0 : F)).map
          (fun v => acc + v) := by
  induction lc generalizing acc with
  | nil => simp
  | cons t ts ih =>
    simp only [List.foldlM_cons]
    cases h : readVar a t.index with
    | none => simp
    | some v =>
      simp only [Option.map_some, Option.bind_eq_bind, Option.bind_some]
      rw [ih, ih (0 + v * t.coeff)]
      cases (List.foldlM (fun acc lt => Option.map (fun v => acc + v * lt.coeff)
        (readVar a lt.index)) (0 : F) ts) <;> simp [add_assoc]

theorem evaluate_nil (a : List F) : evaluate ([] : LinComb F) a = some 0 := rfl

theorem evaluate_cons (a : List F) (t : LinearTerm F) (ts : LinComb F) :
    evaluate (t :: ts) a =
      (readVar a t.index).bind fun v => (evaluate ts a).map fun w => v * t.coeff + w := by
  unfold evaluate
  rw [List.foldlM_cons]
  cases h : readVar a t.index with
  | none => simp
  | some v =>
    simp only [Option.map_some, Option.bind_eq_bind, Option.bind_some, zero_add]
    exact foldlM_eval_acc a ts _

theorem readVar_eq_some {a : List F} {i : Nat} (h : i ≤ a.length) :
    readVar a i = some (envOf a i) := by
  unfold readVar envOf
  cases i with
  | zero => simp
  | succ j =>
    have : j < a.length := h
    simp [this]

theorem readVar_isSome {a : List F} {i : Nat} : (readVar a i).isSome ↔ i ≤ a.length := by
  unfold readVar
  cases i with
  | zero => simp
  | succ j => simp; omega

theorem readVar_eq_none {a : List F} {i : Nat} (h : ¬ i ≤ a.length) :
    readVar a i = none := by
  cases h' : readVar a i with
  | none => rfl
  | some v => exact absurd (readVar_isSome.1 (by simp [h'])) h

theorem evaluate_eq_some {a : List F} {lc : LinComb F} (h : IndicesLE lc a.length) :
    evaluate lc a = some (formalValue lc (envOf a)) := by
  induction lc with
  | nil => rfl
  | cons t ts ih =>
    rw [evaluate_cons, readVar_eq_some (h t (by simp)), ih (fun s hs => h s (by simp [hs]))]
    simp [formalValue, mul_comm]

theorem evaluate_eq_none {a : List F} {lc : LinComb F} (h : ¬ IndicesLE lc a.length) :
    evaluate lc a = none := by
  induction lc with
  | nil => exact absurd (by intro t ht; simp at ht) h
  | cons t ts ih =>
    rw [evaluate_cons]
    by_cases h1 : t.index ≤ a.length
    · have : ¬ IndicesLE ts a.length := fun h2 => h (by
        intro s hs; rcases List.mem_cons.1 hs with rfl | hs
        · exact h1
        · exact h2 s hs)
      rw [ih this]; cases readVar a t.index <;> simp
    · rw [readVar_eq_none h1]; rfl

theorem evaluate_perm {a : List F} {xs ys : LinComb F} (h : xs.Perm ys) :
    evaluate xs a = evaluate ys a := by
  by_cases hx : IndicesLE xs a.length
  · have hy : IndicesLE ys a.length := fun t ht => hx t (h.mem_iff.2 ht)
    rw [evaluate_eq_some hx, evaluate_eq_some hy]
    unfold formalValue
    rw [(h.map _).sum_eq]
  · have hy : ¬ IndicesLE ys a.length := fun h' => hx fun t ht => h' t (h.mem_iff.1 ht)
    rw [evaluate_eq_none hx, evaluate_eq_none hy]

theorem formalValue_cons (t : LinearTerm F) (ts : LinComb F) (x : Nat → F) :
    formalValue (t :: ts) x = t.coeff * x t.index + formalValue ts x := by
  simp [formalValue]

theorem formalValue_add (xs ys : LinComb F) (x : Nat → F) :
    formalValue (add xs ys) x = formalValue xs x + formalValue ys x := by
  fun_induction add xs ys with
  | case1 ys => simp [formalValue]
  | case2 => simp [formalValue]
  | case3 a as b bs h ih => simp only [formalValue_cons] at *; rw [ih]; ring
  | case4 a as b bs h1 h2 ih => simp only [formalValue_cons] at *; rw [ih]; ring
  | case5 a as b bs h1 h2 ih =>
    have : a.index = b.index := by omega
    simp only [formalValue_cons, termScale, ofVar] at *; rw [ih, this]; ring

theorem formalValue_scale (xs : LinComb F) (c : F) (x : Nat → F) :
    formalValue (scale xs c) x = formalValue xs x * c := by
  induction xs with
  | nil => simp [formalValue, scale]
  | cons t ts ih =>
    simp only [scale, List.map_cons, formalValue_cons, termScale] at *
    rw [ih]; ring

theorem add_index_mem (xs ys : LinComb F) (i : Nat) :
    (∃ t ∈ add xs ys, t.index = i) ↔ (∃ t ∈ xs, t.index = i) ∨ (∃ t ∈ ys, t.index = i) := by
  fun_induction add xs ys with
  | case1 ys => simp
  | case2 => simp
  | case3 a as b bs h ih => simp only [List.mem_cons, exists_eq_or_imp] at *; rw [ih]; grind
  | case4 a as b bs h1 h2 ih => simp only [List.mem_cons, exists_eq_or_imp] at *; rw [ih]; grind
  | case5 a as b bs h1 h2 ih =>
    have : a.index = b.index := by omega
    simp only [List.mem_cons, exists_eq_or_imp, termScale, ofVar] at *; rw [ih, this]; grind

theorem indicesLE_iff (xs : LinComb F) (n : Nat) :
    IndicesLE xs n ↔ ∀ i, (∃ t ∈ xs, t.index = i) → i ≤ n := by
  unfold IndicesLE; constructor
  · rintro h i ⟨t, ht, rfl⟩; exact h t ht
  · intro h t ht; exact h _ ⟨t, ht, rfl⟩

theorem indicesLE_add (xs ys : LinComb F) (n : Nat) :
    IndicesLE (add xs ys) n ↔ IndicesLE xs n ∧ IndicesLE ys n := by
  simp only [indicesLE_iff, add_index_mem]
  constructor
  · intro h; exact ⟨fun i hi => h i (Or.inl hi), fun i hi => h i (Or.inr hi)⟩
  · rintro ⟨h1, h2⟩ i (hi | hi)
    · exact h1 i hi
    · exact h2 i hi

theorem indicesLE_scale (xs : LinComb F) (c : F) (n : Nat) :
    IndicesLE (scale xs c) n ↔ IndicesLE xs n := by
  simp [IndicesLE, scale, termScale]

theorem canonical_add {xs ys : LinComb F} (hx : Canonical xs) (hy : Canonical ys) :
    Canonical (add xs ys) := by
  fun_induction add xs ys with
  | case1 ys => exact hy
  | case2 => exact hx
  | case3 a as b bs h ih =>
    unfold Canonical at *
    rw [List.pairwise_cons] at hx ⊢
    refine ⟨?_, ih hx.2 hy⟩
    intro t ht
    rcases (add_index_mem as (b :: bs) t.index).1 ⟨t, ht, rfl⟩ with ⟨s, hs, hi⟩ | ⟨s, hs, hi⟩
    · have := hx.1 s hs; omega
    · rcases List.mem_cons.1 hs with rfl | hs
      · omega
      · have := (List.pairwise_cons.1 hy).1 s hs; omega
  | case4 a as b bs h1 h2 ih =>
    unfold Canonical at *
    rw [List.pairwise_cons] at hy ⊢
    refine ⟨?_, ih hx hy.2⟩
    intro t ht
    rcases (add_index_mem (a :: as) bs t.index).1 ⟨t, ht, rfl⟩ with ⟨s, hs, hi⟩ | ⟨s, hs, hi⟩
    · rcases List.mem_cons.1 hs with rfl | hs
      · omega
      · have := (List.pairwise_cons.1 hx).1 s hs; omega
    · have := hy.1 s hs; omega
  | case5 a as b bs h1 h2 ih =>
    unfold Canonical at *
    rw [List.pairwise_cons] at hx hy ⊢
    refine ⟨?_, ih hx.2 hy.2⟩
    intro t ht
    simp only [termScale, ofVar]
    rcases (add_index_mem as bs t.index).1 ⟨t, ht, rfl⟩ with ⟨s, hs, hi⟩ | ⟨s, hs, hi⟩
    · have := hx.1 s hs; omega
    · have := hy.1 s hs; omega

theorem formalValue_mergeRuns (c : LinearTerm F) (ts : LinComb F) (x : Nat → F) :
    formalValue (mergeRuns c ts) x = c.coeff * x c.index + formalValue ts x := by
  fun_induction mergeRuns c ts with
  | case1 c => simp [formalValue]
  | case2 c t ts h ih => rw [ih, formalValue_cons, h]; ring
  | case3 c t ts h ih => simp only [formalValue_cons]; rw [ih]

theorem mergeRuns_index_mem (c : LinearTerm F) (ts : LinComb F) (i : Nat) :
    (∃ t ∈ mergeRuns c ts, t.index = i) ↔ c.index = i ∨ (∃ t ∈ ts, t.index = i) := by
  fun_induction mergeRuns c ts with
  | case1 c => simp
  | case2 c t ts h ih => simp only [List.mem_cons, exists_eq_or_imp] at *; rw [ih, h]; grind
  | case3 c t ts h ih => simp only [List.mem_cons, exists_eq_or_imp] at *; rw [ih]

theorem canonical_mergeRuns (c : LinearTerm F) (ts : LinComb F)
    (h : (c :: ts).Pairwise fun s t => s.index ≤ t.index) : Canonical (mergeRuns c ts) := by
  fun_induction mergeRuns c ts with
  | case1 c => simp [Canonical]
  | case2 c t ts hi ih =>
    apply ih
    simp only [List.pairwise_cons, List.mem_cons, forall_eq_or_imp] at h ⊢
    exact ⟨fun s hs => h.1.2 s hs, h.2.2⟩
  | case3 c t ts hi ih =>
    simp only [List.pairwise_cons, List.mem_cons, forall_eq_or_imp] at h
    unfold Canonical
    rw [List.pairwise_cons]
    refine ⟨?_, ih (by simp only [List.pairwise_cons]; exact h.2)⟩
    intro s hs
    rcases (mergeRuns_index_mem t ts s.index).1 ⟨s, hs, rfl⟩ with e | ⟨u, hu, e⟩
    · have := h.1.1; omega
    · have := h.1.1; have := h.2.1 u hu; omega

theorem strictlySorted_iff (xs : LinComb F) : strictlySorted xs = true ↔ Canonical xs := by
  fun_induction strictlySorted xs with
  | case1 => simp [Canonical]
  | case2 => simp [Canonical]
  | case3 x y r h =>
    simp only [Bool.false_eq_true, false_iff, Canonical, List.pairwise_cons, List.mem_cons,
      forall_eq_or_imp]
    intro h'; omega
  | case4 x y r h ih =>
    rw [ih]
    simp only [Canonical, List.pairwise_cons, List.mem_cons, forall_eq_or_imp]
    constructor
    · rintro ⟨h1, h2⟩; exact ⟨⟨by omega, fun s hs => by have := h1 s hs; omega⟩, h1, h2⟩
    · rintro ⟨_, h2⟩; exact h2

theorem canonical_le_last {xs : LinComb F} (h : Canonical xs) {l : LinearTerm F}
    (hl : xs.getLast? = some l) : ∀ t ∈ xs, t.index ≤ l.index := by
  obtain ⟨ys, rfl⟩ := List.getLast?_eq_some_iff.1 hl
  intro t ht
  unfold Canonical at h
  rw [List.pairwise_append] at h
  rcases List.mem_append.1 ht with h1 | h1
  · exact (h.2.2 t h1 l (by simp)).le
  · simp at h1; rw [h1]

end LinComb
end Crypto3Zk
