import Verif.Lemmas.Expression
import Verif.Lemmas.PlonkVarOrder
import Mathlib.Algebra.Polynomial.Degree.Operations
import Mathlib.Algebra.Polynomial.Degree.Lemmas
import Mathlib.Algebra.Ring.Hom.Defs
import Mathlib.Algebra.Field.Rat
import Mathlib.Tactic.NormNum
import Mathlib.Data.Prod.Lex
import Mathlib.Algebra.Order.Ring.Int
import Mathlib.Algebra.Order.Ring.Rat

/-!
# C05-C12: expressions, their evaluators and visitors, non-linear combinations, plonk variables
-/

set_option linter.unusedSectionVars false

namespace Crypto3Zk

variable {V R : Type*} [LinearOrder V] [CommRing R] [DecidableEq R]

/-! ## C05 -/

theorem TermProg.run_value (get : V → R) (p : TermProg V R) : p.run.value get = p.denote get := by
  induction p with
  | var v => simp [TermProg.run, TermProg.denote, Term.ofVar, Term.value]
  | const c => simp [TermProg.run, TermProg.denote, Term.ofConst, Term.value]
  | ofVars vs c => simp [TermProg.run, TermProg.denote, Term.value]
  | mul s t hs ht => simp [TermProg.run, TermProg.denote, Term.value_mul, hs, ht]
  | neg t ht => simp [TermProg.run, TermProg.denote, Term.value_neg, ht]

/-- C05: evaluating the expression any program of public operators returns gives the value of the
program's source text, for every assignment. -/
theorem C05_operators_evaluate (p : ExprProg V R) (e : Expr V R) (h : p.run = some e)
    (get : V → R) : e.eval get = p.denote get := by
  induction p generalizing e with
  | default => simp [ExprProg.run] at h; subst h; simp [Expr.empty, Expr.eval, Term.ofConst,
      ExprProg.denote]
  | term t =>
    simp [ExprProg.run] at h; subst h
    rw [Expr.eval_term, TermProg.run_value]; rfl
  | add a b iha ihb =>
    simp [ExprProg.run, Option.bind_eq_some_iff] at h
    obtain ⟨x, hx, y, hy, rfl⟩ := h
    simp [Expr.eval_add, iha x hx, ihb y hy, ExprProg.denote]
  | sub a b iha ihb =>
    simp [ExprProg.run, Option.bind_eq_some_iff] at h
    obtain ⟨x, hx, y, hy, rfl⟩ := h
    simp [Expr.sub, Expr.eval, iha x hx, ihb y hy, ExprProg.denote]
  | mul a b iha ihb =>
    simp [ExprProg.run, Option.bind_eq_some_iff] at h
    obtain ⟨x, hx, y, hy, rfl⟩ := h
    simp [Expr.eval_mul, iha x hx, ihb y hy, ExprProg.denote]
  | neg a iha =>
    simp [ExprProg.run, Option.bind_eq_some_iff] at h
    obtain ⟨x, hx, rfl⟩ := h
    simp [Expr.eval_neg, iha x hx, ExprProg.denote]
  | addAssign a b iha ihb =>
    simp [ExprProg.run, Option.bind_eq_some_iff] at h
    obtain ⟨x, hx, y, hy, rfl⟩ := h
    simp [Expr.eval_addAssign, iha x hx, ihb y hy, ExprProg.denote]
  | subAssign a b iha ihb =>
    simp [ExprProg.run, Option.bind_eq_some_iff] at h
    obtain ⟨x, hx, y, hy, rfl⟩ := h
    simp [Expr.subAssign, Expr.eval, iha x hx, ihb y hy, ExprProg.denote]
  | mulAssign a b iha ihb =>
    simp [ExprProg.run, Option.bind_eq_some_iff] at h
    obtain ⟨x, hx, y, hy, rfl⟩ := h
    simp [Expr.eval_mulAssign, iha x hx, ihb y hy, ExprProg.denote]
  | pow a p iha =>
    simp [ExprProg.run, Option.bind_eq_some_iff] at h
    obtain ⟨x, hx, hp⟩ := h
    simp only [Expr.powOp] at hp
    split at hp
    · simp at hp; subst hp
      simp [Expr.eval, iha x hx, ExprProg.denote]
    · simp at hp

/-- the largest power written in a program -/
def ExprProg.PowersFit : ExprProg V R → Prop
  | .default | .term _ => True
  | .add a b | .sub a b | .mul a b | .addAssign a b | .subAssign a b | .mulAssign a b =>
    a.PowersFit ∧ b.PowersFit
  | .neg a => a.PowersFit
  | .pow a p => a.PowersFit ∧ p < 2 ^ 31

/-- C05: the construction never fails unless a power exceeds the range of `int`. -/
theorem C05_operators_defined (p : ExprProg V R) (h : p.PowersFit) : ∃ e, p.run = some e := by
  induction p with
  | default | term t => exact ⟨_, rfl⟩
  | add a b iha ihb | sub a b iha ihb | mul a b iha ihb | addAssign a b iha ihb
  | subAssign a b iha ihb | mulAssign a b iha ihb =>
    obtain ⟨x, hx⟩ := iha h.1
    obtain ⟨y, hy⟩ := ihb h.2
    exact ⟨_, by simp [ExprProg.run, hx, hy]; rfl⟩
  | neg a iha => obtain ⟨x, hx⟩ := iha h; exact ⟨_, by simp [ExprProg.run, hx]; rfl⟩
  | pow a p iha =>
    obtain ⟨x, hx⟩ := iha h.1
    exact ⟨.pow x p, by simp [ExprProg.run, hx, Expr.powOp]; exact h.2⟩

/-- `(x0 + 0) * 3 - (-x1)^2` -/
def exampleProg : ExprProg Nat ℚ :=
  .sub (.mul (.add (.term (.var 0)) .default) (.term (.const 3))) (.pow (.neg (.term (.var 1))) 2)

example : exampleProg.PowersFit ∧ ∃ e, exampleProg.run = some e ∧
    e.eval (fun v => if v = 0 then 5 else 7) = -34 := by
  refine ⟨by simp [exampleProg, ExprProg.PowersFit], _, rfl, ?_⟩
  rw [C05_operators_evaluate exampleProg _ rfl]
  norm_num [exampleProg, ExprProg.denote, TermProg.denote]

/-! ## C06 -/

/-- C06: flattening preserves the value, for every assignment and every iteration order of the
hash map, provided no power is zero (see `C06_power_zero`). -/
theorem C06_flatten_value_partial (iter : List (Term V R × R) → List (Term V R × R))
    (hi : IsIterOrder iter) (e : Expr V R) (hp : e.PowersPositive) (get : V → R) :
    NLC.value get (e.toNLC iter) = e.eval get := by
  rw [Expr.toNLC, NLC.value_merge get iter hi, Expr.flatten_value get e hp]

/-- C06: the flat form has no two terms with the same variables and no zero coefficient. -/
theorem C06_flatten_canonical (iter : List (Term V R × R) → List (Term V R × R))
    (hi : IsIterOrder iter) (e : Expr V R) :
    (e.toNLC iter).Pairwise (fun s t => ¬ s.vars.Perm t.vars) ∧
    ∀ t ∈ e.toNLC iter, t.coeff ≠ 0 :=
  ⟨(NLC.merge_distinct iter hi _).1, (NLC.merge_distinct iter hi _).2.1⟩

/-- C06 is false without the hypothesis: `x^0` evaluates to one but flattens to `x`. -/
theorem C06_power_zero :
    ∃ (e : Expr Nat ℚ) (get : Nat → ℚ),
      NLC.value get (e.toNLC id) ≠ e.eval get := by
  refine ⟨.pow (.term (Term.ofVar 0)) 0, fun _ => 5, ?_⟩
  rw [Expr.toNLC, NLC.value_merge _ id (fun l => List.Perm.refl l)]
  norm_num [Expr.flatten, Expr.powLoop, NLC.value, Term.value, Term.ofVar, Expr.eval]

/-- `(x0 + x1)^2 - x1 * x0 * 2` meets the hypotheses. -/
example : (Expr.bin .sub (.pow (.bin .add (.term ⟨[0], 1⟩) (.term ⟨[1], 1⟩)) 2)
    (.term ⟨[1, 0], 2⟩) : Expr Nat ℚ).PowersPositive := by
  simp [Expr.PowersPositive]

/-! ## C07 -/

/-- C07: each of any number of calls of `evaluate()` on a cached evaluator returns the value the
plain evaluator returns. -/
theorem C07_cached_eq_plain (e : Expr V R) (get : V → R) (n : Nat) :
    Expr.cachedCalls get e n ⟨[], []⟩ = List.replicate n (e.eval get) :=
  Expr.cachedCalls_ok get e n _ (by simp [Expr.CacheOK])

/-- the cache is really used: after one evaluation of `(x^2) * (x^2)` it holds the square. -/
example : (Expr.evaluateCached (fun _ => (3 : ℚ))
    (.bin .mult (.pow (.term (Term.ofVar 0)) 2) (.pow (.term (Term.ofVar 0)) 2)) ⟨[], []⟩).2.cache
    ≠ ([] : List (Expr Nat ℚ × ℚ)) := by decide +kernel

/-! ## C08 -/

/-- C08: `==` holds exactly when the trees are equal up to the order of variables inside terms. -/
theorem C08_eq_iff (e f : Expr V R) : e.beq f = true ↔ Expr.SameUpToOrder e f :=
  Expr.beq_iff e f

/-- C08: `==` is an equivalence relation. -/
theorem C08_eq_equivalence :
    (∀ e : Expr V R, e.beq e = true) ∧
    (∀ e f : Expr V R, e.beq f = true → f.beq e = true) ∧
    (∀ e f g : Expr V R, e.beq f = true → f.beq g = true → e.beq g = true) := by
  have hsymm : ∀ e f : Expr V R, Expr.SameUpToOrder e f → Expr.SameUpToOrder f e := by
    intro e f h
    induction h with
    | term h => exact .term h.symm
    | pow _ ih => exact .pow ih
    | bin _ _ ih ih' => exact .bin ih ih'
  have htrans : ∀ e f : Expr V R, Expr.SameUpToOrder e f → ∀ g, Expr.SameUpToOrder f g →
      Expr.SameUpToOrder e g := by
    intro e f h
    induction h with
    | term h => intro g hg; cases hg with | term h' => exact .term (h.trans h')
    | pow _ ih => intro g hg; cases hg with | pow h' => exact .pow (ih _ h')
    | bin _ _ ih ih' => intro g hg; cases hg with | bin h h' => exact .bin (ih _ h) (ih' _ h')
  refine ⟨?_, ?_, ?_⟩
  · intro e
    rw [Expr.beq_iff]
    induction e with
    | term t => exact .term (List.Perm.refl _)
    | pow e p ih => exact .pow ih
    | bin o l r ihl ihr => exact .bin ihl ihr
  · intro e f h; rw [Expr.beq_iff] at *; exact hsymm _ _ h
  · intro e f g h h'; rw [Expr.beq_iff] at *; exact htrans _ _ h _ h'

/-- C08: equal expressions have equal hashes, whatever the base hashes and the combiner. -/
theorem C08_eq_hash {H : Type*} (hR : R → H) (hV : V → H) (hInt : Nat → H) (hOp : ArithOp → H)
    (combine : H → H → H) (e f : Expr V R) (h : e.beq f = true) :
    e.hash hR hV hInt hOp combine = f.hash hR hV hInt hOp combine := by
  rw [Expr.beq_iff] at h
  induction h with
  | term h => exact Term.hash_eq _ _ _ rfl h
  | pow _ ih => simp [Expr.hash, ih]
  | bin _ _ ih ih' => simp [Expr.hash, ih, ih']

/-- C08: equal expressions evaluate equally. -/
theorem C08_eq_value (e f : Expr V R) (h : e.beq f = true) (get : V → R) :
    e.eval get = f.eval get := Expr.eval_beq get h

example : (Expr.pow (.term ⟨[0, 1, 0], 2⟩) 3 : Expr Nat ℚ).beq (.pow (.term ⟨[1, 0, 0], 2⟩) 3)
    = true := by decide +kernel

/-! ## C09 -/

/-- C09: the 32-bit degree is the true degree of the tree as long as that fits in 32 bits. -/
theorem C09_max_degree_exact (e : Expr V R) (h : e.degree < 2 ^ 32) :
    e.maxDegree32 = e.degree := Expr.maxDegree32_eq e h

/-- C09: every term of the flat form uses at most `compute_max_degree` variables, and the flat
form's own `max_degree` is at most that (powers at least one). -/
theorem C09_bounds_flat_terms_partial (iter : List (Term V R × R) → List (Term V R × R))
    (hi : IsIterOrder iter) (e : Expr V R) (hp : e.PowersPositive) (hd : e.degree < 2 ^ 32) :
    (∀ t ∈ e.toNLC iter, t.vars.length ≤ e.maxDegree32) ∧
    NLC.maxDegree (e.toNLC iter) ≤ e.maxDegree32 := by
  have h1 : ∀ t ∈ e.toNLC iter, t.vars.length ≤ e.maxDegree32 := by
    intro t ht
    obtain ⟨t', ht', h⟩ := (NLC.merge_distinct iter hi _).2.2 t ht
    rw [Expr.maxDegree32_eq e hd, ← h]
    exact Expr.flatten_len e hp t' ht'
  exact ⟨h1, (NLC.maxDegree_le _ _).2 h1⟩

/-- C09 needs the hypothesis: `x^0` has degree 0 but flattens to a term of degree 1. -/
theorem C09_power_zero :
    ∃ (e : Expr Nat ℚ), e.maxDegree32 < NLC.maxDegree (e.toNLC id) :=
  ⟨.pow (.term (Term.ofVar 0)) 0, by decide +kernel⟩

open Polynomial in
/-- C09: substituting polynomials of degree at most `d` yields a polynomial of degree at most
`compute_max_degree * d` (no condition on powers). -/
theorem C09_polynomial_degree {F : Type*} [Field F] [DecidableEq F[X]] (e : Expr V F[X])
    (hc : e.CoeffsSatisfy fun c => c.natDegree = 0) (hd : e.degree < 2 ^ 32) (d : Nat)
    (get : V → F[X]) (hg : ∀ v, (get v).natDegree ≤ d) :
    (e.eval get).natDegree ≤ e.maxDegree32 * d := by
  rw [Expr.maxDegree32_eq e hd]
  clear hd
  induction e with
  | term t =>
    rw [Expr.eval_term, Term.value]
    simp only [Expr.CoeffsSatisfy] at hc
    have h1 : ∀ vs : List V, ((vs.map get).prod).natDegree ≤ vs.length * d := by
      intro vs
      induction vs with
      | nil => simp
      | cons v vs ih =>
        simp only [List.map_cons, List.prod_cons, List.length_cons]
        calc _ ≤ _ := natDegree_mul_le
          _ ≤ d + vs.length * d := Nat.add_le_add (hg v) ih
          _ = _ := by ring
    calc _ ≤ _ := natDegree_mul_le
      _ ≤ 0 + t.vars.length * d := Nat.add_le_add hc.le (h1 _)
      _ = _ := by simp [Expr.degree]
  | pow e p ih =>
    simp only [Expr.eval, Expr.degree]
    calc _ ≤ p * (e.eval get).natDegree := natDegree_pow_le
      _ ≤ p * (e.degree * d) := Nat.mul_le_mul_left _ (ih hc)
      _ = _ := by ring
  | bin o l r ihl ihr =>
    have il := ihl hc.1
    have ir := ihr hc.2
    cases o
    · simp only [Expr.eval, Expr.degree]
      exact (natDegree_add_le _ _).trans (max_le
        (il.trans (Nat.mul_le_mul_right _ (le_max_left _ _)))
        (ir.trans (Nat.mul_le_mul_right _ (le_max_right _ _))))
    · simp only [Expr.eval, Expr.degree]
      exact (natDegree_sub_le _ _).trans (max_le
        (il.trans (Nat.mul_le_mul_right _ (le_max_left _ _)))
        (ir.trans (Nat.mul_le_mul_right _ (le_max_right _ _))))
    · simp only [Expr.eval, Expr.degree, Nat.add_mul]
      exact natDegree_mul_le.trans (Nat.add_le_add il ir)

/-- C09 needs the bound: a buildable expression of degree `2^32` is reported to have degree 0. -/
theorem C09_wraps : ∃ e : Expr Nat ℚ,
    (ExprProg.pow (.pow (.term (.var 0)) (2 ^ 30)) 4).run = some e ∧ e.degree = 2 ^ 32 ∧
      e.maxDegree32 = 0 := by
  refine ⟨_, rfl, ?_, ?_⟩ <;> norm_num [Expr.degree, Expr.maxDegree32, TermProg.run, Term.ofVar]

example : (Expr.bin .mult (.pow (.term ⟨[0, 1], 5⟩) 3) (.term ⟨[2], 1⟩) : Expr Nat ℚ).maxDegree32
    = 7 := by decide +kernel

/-! ## C10 -/

/-- C10: `==` of non-linear combinations is equality of multisets of terms: every term occurs (up
to `==` of terms) the same number of times on both sides. -/
theorem C10_eq_iff_multiset (a b : NLC V R) :
    NLC.beq a b = true ↔
      ∀ t : Term V R,
        (a.countP fun s => decide (s.coeff = t.coeff ∧ s.vars.Perm t.vars)) =
          b.countP fun s => decide (s.coeff = t.coeff ∧ s.vars.Perm t.vars) := by
  have : ∀ s t : Term V R, s.beq t = decide (s.coeff = t.coeff ∧ s.vars.Perm t.vars) := by
    intro s t
    rw [Bool.eq_iff_iff, decide_eq_true_eq, Term.beq_iff]
  rw [NLC.beq, CountMap.eqv_iff Term.beq_equiv]
  simp only [this]

/-- C10: consequently it does not depend on the order of the terms, and equal combinations have
equal values. -/
theorem C10_order_independent (a a' b b' : NLC V R) (ha : a.Perm a') (hb : b.Perm b') :
    NLC.beq a b = NLC.beq a' b' := by
  rw [Bool.eq_iff_iff, C10_eq_iff_multiset, C10_eq_iff_multiset]
  simp only [ha.countP_eq, hb.countP_eq]

theorem C10_eq_value (a b : NLC V R) (h : NLC.beq a b = true) (get : V → R) :
    a.value get = b.value get := by
  rw [C10_eq_iff_multiset] at h
  classical
  -- normalise every term by sorting its variables
  let nf : Term V R → R × List V := fun t => (t.coeff, t.vars.insertionSort (· ≤ ·))
  have hnf : ∀ s t : Term V R, nf s = nf t ↔ (s.coeff = t.coeff ∧ s.vars.Perm t.vars) := by
    intro s t
    simp only [nf, Prod.mk.injEq]
    refine and_congr_right fun _ => ?_
    constructor
    · intro hs
      exact (List.perm_insertionSort (· ≤ ·) s.vars).symm.trans
        (hs ▸ List.perm_insertionSort (· ≤ ·) t.vars)
    · intro hp
      apply List.Perm.eq_of_pairwise (le := (· ≤ ·))
      · exact fun a b _ _ h1 h2 => le_antisymm h1 h2
      · exact List.pairwise_insertionSort (· ≤ ·) _
      · exact List.pairwise_insertionSort (· ≤ ·) _
      · exact (List.perm_insertionSort _ _).trans (hp.trans (List.perm_insertionSort _ _).symm)
  have hperm : (a.map nf).Perm (b.map nf) := by
    rw [List.perm_iff_count]
    intro k
    simp only [List.count_eq_countP, List.countP_map, Function.comp_def]
    by_cases hk : ∃ t, nf t = k
    · obtain ⟨t, rfl⟩ := hk
      have := h t
      simp only [← hnf] at this
      convert this using 2 <;> (funext s; rw [Bool.eq_iff_iff]; simp)
    · have hz : ∀ l : NLC V R, (l.countP fun x => nf x == k) = 0 := by
        intro l
        rw [List.countP_eq_zero]
        intro t _ ht
        exact hk ⟨t, by simpa using ht⟩
      rw [hz, hz]
  have hval : ∀ l : NLC V R,
      l.value get = ((l.map nf).map fun e => e.1 * (e.2.map get).prod).sum := by
    intro l
    simp only [NLC.value, List.map_map]
    congr 1
    apply List.map_congr_left
    intro t _
    simp only [Term.value, Function.comp_apply, nf]
    rw [((List.perm_insertionSort (· ≤ ·) t.vars).map get).prod_eq]
  rw [hval, hval]
  exact (hperm.map _).sum_eq

example : NLC.beq ([⟨[0, 1], 2⟩, ⟨[2], 1⟩] : NLC Nat ℚ) [⟨[2], 1⟩, ⟨[1, 0], 2⟩] = true := by
  decide +kernel

/-! ## C11 -/

namespace PlonkVar

theorem blt_iff_key (a b : PlonkVar) : blt a b = true ↔ key a < key b := by
  obtain ⟨i, r, l, t⟩ := a; obtain ⟨i', r', l', t'⟩ := b
  simp only [key, Prod.Lex.toLex_lt_toLex, blt]
  by_cases h1 : i = i'
  · subst h1
    by_cases h2 : r = r'
    · subst h2
      by_cases h3 : t = t'
      · subst h3
        cases l <;> cases l' <;> simp
      · have h3' : t.code ≠ t'.code := fun h => h3 (code_inj h)
        simp [h3, h3']
    · simp [h2]
  · simp [h1]

end PlonkVar

/-- C11: `==` is identity of all four components. -/
theorem C11_eq_iff (a b : PlonkVar) : PlonkVar.beq a b = true ↔ a = b := by
  obtain ⟨i, r, l, t⟩ := a; obtain ⟨i', r', l', t'⟩ := b
  simp [PlonkVar.beq]; tauto

/-- C11: `<` is a strict total order compatible with `==`: exactly one of `a < b`, `a == b`,
`b < a` holds, and `<` is transitive. -/
theorem C11_strict_total_order :
    (∀ a b : PlonkVar,
      (PlonkVar.blt a b = true ∧ PlonkVar.beq a b = false ∧ PlonkVar.blt b a = false) ∨
      (PlonkVar.blt a b = false ∧ PlonkVar.beq a b = true ∧ PlonkVar.blt b a = false) ∨
      (PlonkVar.blt a b = false ∧ PlonkVar.beq a b = false ∧ PlonkVar.blt b a = true)) ∧
    (∀ a b c : PlonkVar, PlonkVar.blt a b = true → PlonkVar.blt b c = true →
      PlonkVar.blt a c = true) := by
  constructor
  · intro a b
    have hab := PlonkVar.blt_iff_key a b
    have hba := PlonkVar.blt_iff_key b a
    have he := C11_eq_iff a b
    rcases lt_trichotomy (PlonkVar.key a) (PlonkVar.key b) with h | h | h
    · left
      have h' : ¬ PlonkVar.key b < PlonkVar.key a := h.asymm
      have hn : a ≠ b := by rintro rfl; exact lt_irrefl _ h
      refine ⟨hab.2 h, ?_, ?_⟩ <;> rw [← Bool.not_eq_true] <;> simp_all
    · right; left
      have := PlonkVar.key_inj h
      subst this
      refine ⟨?_, he.2 rfl, ?_⟩ <;> rw [← Bool.not_eq_true] <;> simp_all
    · right; right
      have h' : ¬ PlonkVar.key a < PlonkVar.key b := h.asymm
      have hn : a ≠ b := by rintro rfl; exact lt_irrefl _ h
      refine ⟨?_, ?_, hba.2 h⟩ <;> rw [← Bool.not_eq_true] <;> simp_all
  · intro a b c h h'
    rw [PlonkVar.blt_iff_key] at *
    exact h.trans h'

/-- C11: `>` is the converse of `<`. -/
theorem C11_gt_iff (a b : PlonkVar) : PlonkVar.bgt a b = PlonkVar.blt b a := by
  rcases C11_strict_total_order.1 a b with ⟨h1, h2, h3⟩ | ⟨h1, h2, h3⟩ | ⟨h1, h2, h3⟩ <;>
    simp [PlonkVar.bgt, h1, h2, h3]

theorem plonkVar_lt_iff (a b : PlonkVar) : a < b ↔ PlonkVar.blt a b = true :=
  (PlonkVar.blt_iff_key a b).symm

/-! ## C12 -/

section
variable {W S : Type*} [LinearOrder W] [CommRing S] [DecidableEq S]

/-- C12: converting the variable type commutes with evaluation, for every ring homomorphism `f` on
coefficients and every pair of assignments that agree through it. -/
theorem C12_convert_eval (g : V → W) (f : R →+* S) (e : Expr V R) (get : V → R) (get' : W → S)
    (hg : ∀ v ∈ e.visitVars, get' (g v) = f (get v)) :
    (e.convert g f).eval get' = f (e.eval get) := by
  induction e with
  | term t =>
    simp only [Expr.convert, Expr.eval_term, Term.value, List.map_map, map_mul, map_list_prod]
    congr 2
    apply List.map_congr_left
    intro v hv
    exact hg v hv
  | pow e p ih => simp only [Expr.convert, Expr.eval, map_pow]; rw [ih hg]
  | bin o l r ihl ihr =>
    have il := ihl fun v hv => hg v (by simp [Expr.visitVars, hv])
    have ir := ihr fun v hv => hg v (by simp [Expr.visitVars, hv])
    cases o
    · simp only [Expr.convert, Expr.eval_add, il, ir, Expr.eval, map_add]
    · simp only [Expr.convert, Expr.sub, il, ir, Expr.eval, map_sub]
    · simp only [Expr.convert, Expr.eval_mul, il, ir, Expr.eval, map_mul]
end

/-- C12: the visitor calls back once per occurrence of each variable. -/
theorem C12_visitor_counts (e : Expr V R) (v : V) : e.visitVars.count v = e.occurrences v := by
  induction e with
  | term t => rfl
  | pow e p ih => exact ih
  | bin o l r ihl ihr => simp [Expr.visitVars, Expr.occurrences, ihl, ihr]

/-- C12: the value depends only on the visited variables. -/
theorem C12_eval_congr (e : Expr V R) (get get' : V → R)
    (h : ∀ v ∈ e.visitVars, get v = get' v) : e.eval get = e.eval get' := by
  induction e with
  | term t =>
    simp only [Expr.eval_term, Term.value]
    congr 2
    exact List.map_congr_left h
  | pow e p ih => simp only [Expr.eval]; rw [ih h]
  | bin o l r ihl ihr =>
    have il := ihl fun v hv => h v (by simp [Expr.visitVars, hv])
    have ir := ihr fun v hv => h v (by simp [Expr.visitVars, hv])
    cases o <;> simp [Expr.eval, il, ir]

/-- `2 * x0 * x1 + 0` over the integers, moved to the rationals with renamed variables. -/
example : ((Expr.bin .add (.term ⟨[0, 1], 2⟩) (.term ⟨[], 0⟩) : Expr Nat ℤ).convert
    (fun v : Nat => v + 1) (Int.castRingHom ℚ)).eval (fun v : Nat => (v : ℚ)) = 4 :=
  (C12_convert_eval (fun v : Nat => v + 1) (Int.castRingHom ℚ) _ (fun v => (v : ℤ) + 1) _
    (by intro v _; simp)).trans (by norm_num [Expr.eval])

end Crypto3Zk
