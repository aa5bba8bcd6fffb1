import Verif.Lemmas.CachedEvaluator

/-!
# C105: the cached evaluator does not compute a subexpression twice
-/

set_option linter.unusedSectionVars false

namespace Crypto3Zk

open Expr

variable {V R : Type*} [LinearOrder V] [CommRing R] [DecidableEq R]

/-- The evaluator with a log is the evaluator. -/
theorem C105_log_is_evaluator (get : V → R) (e : Expr V R) (s : CacheState V R) :
    (evalCachedLog get e ⟨countSub e [], s.cache⟩).1 = evaluateCached get e s := by
  rw [evalCachedLog_eq]; rfl

/-- **C105.** In every call of `evaluate()`, whatever calls came before it, a subexpression that is not a term of at
most two variables is computed at most once, however often it is in the expression. -/
theorem C105_computed_once (get : V → R) (e : Expr V R) (he : e.subexprs.length < 2 ^ 64) (n : Nat) (k : Expr V R)
    (hk : k.Worth) : timesIn k (e.computedIn get n) ≤ 1 := by
  have := (Budget.start e he (e.afterCalls get n).cache).eval get e _ _ _ fun _ _ => le_rfl
  simpa [computedIn] using this.once k hk

/-- The values of variables are not asked for more often than by an evaluator without a cache, which computes each
subexpression each time. -/
theorem C105_variable_calls (get : V → R) (e : Expr V R) (n : Nat) :
    List.Subperm (getterCalls (e.computedIn get n)) (getterCalls e.subexprs) := by
  obtain ⟨l, hp, hs⟩ := log_subperm get e ⟨countSub e [], (e.afterCalls get n).cache⟩
  exact ⟨getterCalls l, hp.flatMap_right _, hs.flatMap _⟩

/-- Only values of subexpressions that are in the expression more than once are kept. -/
theorem C105_cache_repeated (get : V → R) (e : Expr V R) (he : e.subexprs.length < 2 ^ 64) (n : Nat) (k : Expr V R)
    (hk : mapFind (e.afterCalls get n).cache k ≠ none) : k.Worth ∧ 2 ≤ timesIn k e.subexprs := by
  induction n with
  | zero => simp [afterCalls, mapFind] at hk
  | succ n ih =>
    have h := ((Budget.start e he (e.afterCalls get n).cache).eval get e _ _ _ fun _ _ => le_rfl).repeated k
    rw [C105_log_is_evaluator] at h
    rcases h hk with h | h
    · have hw : k.Worth := by
        by_contra hw
        have h1 := counter_not_worth e [] k hw
        have h2 : counter ([] : List (Expr V R × Nat)) k = 0 := rfl
        omega
      refine ⟨hw, ?_⟩
      have h1 := counter_countSub e [] k hw (by simpa [counter, mapFind] using he)
      have h2 : counter ([] : List (Expr V R × Nat)) k = 0 := rfl
      omega
    · exact ih h

/-- A value is kept only as long as its counter says that it is still to be used. -/
theorem C105_cache_useful (get : V → R) (e : Expr V R) (he : e.subexprs.length < 2 ^ 64) (n : Nat) (k : Expr V R)
    (hk : mapFind (e.afterCalls get n).cache k ≠ none) : 0 < (mapFind (e.afterCalls get n).counts k).getD 0 := by
  have key : ∀ n, Useful (e.afterCalls get n) := by
    intro n
    induction n with
    | zero => exact ⟨List.Pairwise.nil, fun k hk => by simp [afterCalls, mapFind] at hk⟩
    | succ n ih =>
      refine Useful.eval get e _ ⟨ih.1, fun k hk => ?_⟩
      obtain ⟨hw, h2⟩ := C105_cache_repeated get e he n k hk
      have h1 := counter_countSub e [] k hw (by simpa [counter, mapFind] using he)
      have h3 : counter ([] : List (Expr V R × Nat)) k = 0 := rfl
      change 0 < counter (countSub e []) k
      omega
  exact (key n).2 k hk

/-- `xyz + (xyz)^2`, with variables 0, 1 and 2. -/
def exCached : Expr Nat ℚ := .bin .add (.term ⟨[0, 1, 2], 1⟩) (.pow (.term ⟨[2, 1, 0], 1⟩) 2)

/-- The values of the three variables are asked for once and not twice, and the product is kept. -/
example : exCached.subexprs.length < 2 ^ 64 ∧ timesIn (.term ⟨[0, 1, 2], 1⟩) exCached.subexprs = 2 ∧
    getterCalls (exCached.computedIn (fun v : Nat => (v : ℚ) + 2) 0) = [0, 1, 2] ∧
    getterCalls exCached.subexprs = [0, 1, 2, 2, 1, 0] ∧
    mapFind (exCached.afterCalls (fun v : Nat => (v : ℚ) + 2) 1).cache (.term ⟨[0, 1, 2], 1⟩) = some 24 := by
  decide +kernel

/-- In the second call the product is not computed, and then it is not kept any more. -/
example : getterCalls (exCached.computedIn (fun v : Nat => (v : ℚ) + 2) 1) = [] ∧
    mapFind (exCached.afterCalls (fun v : Nat => (v : ℚ) + 2) 2).cache (.term ⟨[0, 1, 2], 1⟩) = none := by
  decide +kernel

end Crypto3Zk
