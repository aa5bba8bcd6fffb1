import Verif.Spec.GateArg
import Verif.Props.Expression
import Verif.Lemmas.PermutationArg
import Verif.Lemmas.PlonkTable
import Mathlib.Algebra.Polynomial.Eval.Degree
import Mathlib.Algebra.Polynomial.Roots

/-!
# Lemmas for the gate argument
-/

set_option linter.unusedSectionVars false

namespace Crypto3Zk

open Polynomial

variable {F : Type} [Field F] [DecidableEq F] {S : Type} {L : FftLib F} {A : Nat}

/-! ### evaluation of polynomial expressions at a point -/

theorem convert_eval_at (c : Expr PlonkVar F) (get : PlonkVar → F[X]) (y : F) :
    ((c.convert id (fun a => (C a : F[X]))).eval get).eval y = c.eval fun v => (get v).eval y := by
  induction c with
  | term t =>
    simp only [Expr.convert, Expr.eval_term, Term.value, List.map_id, eval_mul, eval_C,
      eval_list_prod, List.map_map]
    rfl
  | pow e p ih => simp only [Expr.convert, Expr.eval, eval_pow, ih]
  | bin o l r ihl ihr =>
    cases o
    · simp only [Expr.convert, Expr.eval_add, Expr.eval, eval_add, ihl, ihr]
    · simp only [Expr.convert, Expr.sub, Expr.eval, eval_sub, ihl, ihr]
    · simp only [Expr.convert, Expr.eval_mul, Expr.eval, eval_mul, ihl, ihr]

theorem constExpr_eval (a : F) (get : PlonkVar → F[X]) : (constExpr a).eval get = C a := by
  simp [constExpr, Expr.eval, Term.ofConst]

theorem selectorExpr_eval (i : Nat) (get : PlonkVar → F[X]) :
    (selectorExpr i).eval get = get ⟨i, 0, false, .selector⟩ := by
  simp [selectorExpr, Expr.eval, Term.ofVar]

theorem empty_eval (get : PlonkVar → F[X]) : (Expr.empty : Expr PlonkVar F[X]).eval get = 0 := by
  simp [Expr.empty, Expr.eval, Term.ofConst]

theorem constraintLoop_eval (theta : F) (limit : Nat) (get : PlonkVar → F[X]) (y : F) :
    ∀ (cs : List (Expr PlonkVar F)) (acc : F) (e0 e1 : Expr PlonkVar F[X]),
      let r := constraintLoop theta limit cs acc e0 e1
      (r.1.1.eval get).eval y + (r.1.2.eval get).eval y =
        (e0.eval get).eval y + (e1.eval get).eval y +
          acc * evalPoly (cs.map fun c => c.eval fun v => (get v).eval y) theta ∧
      r.2 = acc * theta ^ cs.length := by
  intro cs
  induction cs with
  | nil => intro acc e0 e1; simp [constraintLoop]
  | cons c cs ih =>
    intro acc e0 e1
    simp only [constraintLoop]
    split_ifs with h
    · obtain ⟨h1, h2⟩ := ih (acc * theta) e0
        (e1.addAssign ((c.convert id (fun a => (C a : F[X]))).mul (constExpr acc)))
      refine ⟨?_, ?_⟩
      · rw [h1]
        simp only [Expr.eval_addAssign, Expr.eval_mul, constExpr_eval, eval_add, eval_mul, eval_C,
          convert_eval_at, List.map_cons, evalPoly_cons]
        ring
      · rw [h2]; simp only [List.length_cons]; ring
    · obtain ⟨h1, h2⟩ := ih (acc * theta)
        (e0.addAssign ((c.convert id (fun a => (C a : F[X]))).mul (constExpr acc))) e1
      refine ⟨?_, ?_⟩
      · rw [h1]
        simp only [Expr.eval_addAssign, Expr.eval_mul, constExpr_eval, eval_add, eval_mul, eval_C,
          convert_eval_at, List.map_cons, evalPoly_cons]
        ring
      · rw [h2]; simp only [List.length_cons]; ring

/-- The coefficients of the random combination, for the values `val` of the variables: each constraint
multiplied by its gate's selector. -/
def gateValues (gates : List (Gate F)) (val : PlonkVar → F) : List F :=
  gates.flatMap fun g => g.constraints.map fun c => val ⟨g.selectorIndex, 0, false, .selector⟩ * c.eval val

theorem length_gateValues (gates : List (Gate F)) (val : PlonkVar → F) :
    (gateValues gates val).length = constraintCount gates := by
  simp [gateValues, constraintCount, List.length_flatMap]

theorem evalPoly_map_left (s : F) (l : List (Expr PlonkVar F)) (val : PlonkVar → F) (x : F) :
    evalPoly (l.map fun c => s * c.eval val) x = s * evalPoly (l.map fun c => c.eval val) x := by
  induction l with
  | nil => simp
  | cons c l ih => simp only [List.map_cons, evalPoly_cons, ih]; ring

theorem gateLoop_eval (theta : F) (limit : Nat) (get : PlonkVar → F[X]) (y : F) :
    ∀ (gates : List (Gate F)) (acc : F) (e0 e1 : Expr PlonkVar F[X]),
      let r := gateLoop theta limit gates acc e0 e1
      (r.1.eval get).eval y + (r.2.eval get).eval y =
        (e0.eval get).eval y + (e1.eval get).eval y +
          acc * evalPoly (gateValues gates fun v => (get v).eval y) theta := by
  intro gates
  induction gates with
  | nil => intro acc e0 e1; simp [gateLoop, gateValues]
  | cons g gs ih =>
    intro acc e0 e1
    simp only [gateLoop]
    obtain ⟨h1, h2⟩ := constraintLoop_eval theta limit get y g.constraints acc .empty .empty
    rw [ih, h2]
    simp only [Expr.eval_addAssign, Expr.eval_mulAssign, selectorExpr_eval, eval_add, eval_mul]
    simp only [empty_eval, eval_zero, zero_add] at h1
    rw [show gateValues (g :: gs) (fun v => (get v).eval y) =
      (g.constraints.map fun c => (get ⟨g.selectorIndex, 0, false, .selector⟩).eval y *
        c.eval fun v => (get v).eval y) ++ gateValues gs (fun v => (get v).eval y) from rfl,
      evalPoly_append, evalPoly_map_left, List.length_map]
    linear_combination (get ⟨g.selectorIndex, 0, false, .selector⟩).eval y * h1

/-! ### variables that occur -/

theorem visit_addAssign (e f : Expr PlonkVar F[X]) (v : PlonkVar) (h : v ∈ (e.addAssign f).visitVars) :
    v ∈ e.visitVars ∨ v ∈ f.visitVars := by
  unfold Expr.addAssign at h
  split_ifs at h
  · exact Or.inr h
  · simpa [Expr.visitVars] using h
  · exact Or.inl h

theorem visit_add (e f : Expr PlonkVar F[X]) (v : PlonkVar) (h : v ∈ (e.add f).visitVars) :
    v ∈ e.visitVars ∨ v ∈ f.visitVars := by
  unfold Expr.add at h
  split_ifs at h
  · exact Or.inr h
  · exact Or.inl h
  · simpa [Expr.visitVars] using h

theorem visit_mul (e f : Expr PlonkVar F[X]) (v : PlonkVar) (h : v ∈ (e.mul f).visitVars) :
    v ∈ e.visitVars ∨ v ∈ f.visitVars := by
  unfold Expr.mul at h
  split_ifs at h
  · simp [Expr.empty, Expr.visitVars, Term.ofConst] at h
  · simpa [Expr.visitVars] using h

theorem visit_convert (c : Expr PlonkVar F) (f : F → F[X]) (v : PlonkVar)
    (h : v ∈ (c.convert id f).visitVars) : v ∈ c.visitVars := by
  induction c with
  | term t => simpa [Expr.convert, Expr.visitVars] using h
  | pow e p ih => exact ih h
  | bin o l r ihl ihr =>
    have : v ∈ (l.convert id f).visitVars ∨ v ∈ (r.convert id f).visitVars := by
      cases o
      · exact visit_add _ _ _ h
      · simpa [Expr.convert, Expr.sub, Expr.visitVars] using h
      · exact visit_mul _ _ _ h
    rcases this with h | h
    · simp [Expr.visitVars, ihl h]
    · simp [Expr.visitVars, ihr h]

theorem visit_constraintLoop (theta : F) (limit : Nat) (v : PlonkVar) :
    ∀ (cs : List (Expr PlonkVar F)) (acc : F) (e0 e1 : Expr PlonkVar F[X]),
      let r := constraintLoop theta limit cs acc e0 e1
      (v ∈ r.1.1.visitVars ∨ v ∈ r.1.2.visitVars) →
        v ∈ e0.visitVars ∨ v ∈ e1.visitVars ∨ ∃ c ∈ cs, v ∈ c.visitVars := by
  intro cs
  induction cs with
  | nil => intro acc e0 e1 r h; simp only [constraintLoop, r] at h; tauto
  | cons c cs ih =>
    intro acc e0 e1 r h
    have hn : v ∈ ((c.convert id (fun a => (C a : F[X]))).mul (constExpr acc)).visitVars →
        v ∈ c.visitVars := by
      intro h
      rcases visit_mul _ _ _ h with h | h
      · exact visit_convert _ _ _ h
      · simp [constExpr, Expr.visitVars, Term.ofConst] at h
    simp only [constraintLoop, r] at h
    split_ifs at h
    · rcases ih _ _ _ h with h | h | ⟨c', hc', h⟩
      · exact Or.inl h
      · rcases visit_addAssign _ _ _ h with h | h
        · exact Or.inr (Or.inl h)
        · exact Or.inr (Or.inr ⟨c, by simp, hn h⟩)
      · exact Or.inr (Or.inr ⟨c', by simp [hc'], h⟩)
    · rcases ih _ _ _ h with h | h | ⟨c', hc', h⟩
      · rcases visit_addAssign _ _ _ h with h | h
        · exact Or.inl h
        · exact Or.inr (Or.inr ⟨c, by simp, hn h⟩)
      · exact Or.inr (Or.inl h)
      · exact Or.inr (Or.inr ⟨c', by simp [hc'], h⟩)

theorem visit_gateLoop (theta : F) (limit : Nat) (v : PlonkVar) :
    ∀ (gates : List (Gate F)) (acc : F) (e0 e1 : Expr PlonkVar F[X]),
      let r := gateLoop theta limit gates acc e0 e1
      (v ∈ r.1.visitVars ∨ v ∈ r.2.visitVars) →
        v ∈ e0.visitVars ∨ v ∈ e1.visitVars ∨
          ∃ g ∈ gates, v = ⟨g.selectorIndex, 0, false, .selector⟩ ∨ ∃ c ∈ g.constraints, v ∈ c.visitVars := by
  intro gates
  induction gates with
  | nil => intro acc e0 e1 r h; simp only [gateLoop, r] at h; tauto
  | cons g gs ih =>
    intro acc e0 e1 r h
    simp only [gateLoop, r] at h
    have hs : ∀ e : Expr PlonkVar F[X], v ∈ (e.mulAssign (selectorExpr g.selectorIndex)).visitVars →
        v ∈ e.visitVars ∨ v = ⟨g.selectorIndex, 0, false, .selector⟩ := by
      intro e h
      rcases visit_mul _ _ _ h with h | h
      · exact Or.inl h
      · exact Or.inr (by simpa [selectorExpr, Expr.visitVars, Term.ofVar] using h)
    have hc : (v ∈ (constraintLoop theta limit g.constraints acc .empty .empty).1.1.visitVars ∨
        v ∈ (constraintLoop theta limit g.constraints acc .empty .empty).1.2.visitVars) →
        ∃ c ∈ g.constraints, v ∈ c.visitVars := by
      intro h
      rcases visit_constraintLoop theta limit v _ _ _ _ h with h | h | h
      · simp [Expr.empty, Expr.visitVars, Term.ofConst] at h
      · simp [Expr.empty, Expr.visitVars, Term.ofConst] at h
      · exact h
    rcases ih _ _ _ h with h | h | ⟨g', hg', h⟩
    · rcases visit_addAssign _ _ _ h with h | h
      · exact Or.inl h
      · rcases hs _ h with h | h
        · exact Or.inr (Or.inr ⟨g, by simp, Or.inr (hc (Or.inl h))⟩)
        · exact Or.inr (Or.inr ⟨g, by simp, Or.inl h⟩)
    · rcases visit_addAssign _ _ _ h with h | h
      · exact Or.inr (Or.inl h)
      · rcases hs _ h with h | h
        · exact Or.inr (Or.inr ⟨g, by simp, Or.inr (hc (Or.inr h))⟩)
        · exact Or.inr (Or.inr ⟨g, by simp, Or.inl h⟩)
    · exact Or.inr (Or.inr ⟨g', by simp [hg'], h⟩)

/-! ### the map of values -/

theorem readVariable_of_mem (m : List (PlonkVar × F[X])) (f : PlonkVar → F[X])
    (hm : ∀ e ∈ m, e.2 = f e.1) (v : PlonkVar) (hv : ∃ e ∈ m, e.1 = v) : readVariable m v = f v := by
  unfold readVariable
  obtain ⟨e, he, hev⟩ := hv
  have : (m.find? fun e => decide (e.1 = v)).isSome := by
    rw [List.find?_isSome]; exact ⟨e, he, by simpa using hev⟩
  obtain ⟨e', he'⟩ := Option.isSome_iff_exists.1 this
  rw [he']
  have h1 := List.mem_of_find?_eq_some he'
  have h2 := List.find?_some he'
  simp only [decide_eq_true_eq] at h2
  simp [hm e' h1, h2]

theorem buildVariables_ok (n : Nat) (t : PlonkTable F) (f : PlonkVar → F[X]) :
    ∀ (vs : List PlonkVar) (m : List (PlonkVar × F[X])),
      (∀ v ∈ vs, variablePoly L n t v = some (f v)) → (∀ e ∈ m, e.2 = f e.1) →
      ∃ m', buildVariables L n t vs m = some m' ∧ (∀ e ∈ m', e.2 = f e.1) ∧
        (∀ e ∈ m, e ∈ m') ∧ ∀ v ∈ vs, ∃ e ∈ m', e.1 = v := by
  intro vs
  induction vs with
  | nil => intro m _ hm; exact ⟨m, rfl, hm, fun _ h => h, by simp⟩
  | cons v vs ih =>
    intro m hv hm
    simp only [buildVariables]
    by_cases h : (m.find? fun e => decide (e.1 = v)).isSome
    · rw [if_pos h]
      obtain ⟨m', h1, h2, h3, h4⟩ := ih m (fun w hw => hv w (by simp [hw])) hm
      refine ⟨m', h1, h2, h3, ?_⟩
      intro w hw
      rcases List.mem_cons.1 hw with rfl | hw
      · rw [List.find?_isSome] at h
        obtain ⟨e, he, hev⟩ := h
        exact ⟨e, h3 e he, by simpa using hev⟩
      · exact h4 w hw
    · rw [if_neg h, hv v (by simp)]
      simp only [Option.bind_eq_bind, Option.bind_some]
      obtain ⟨m', h1, h2, h3, h4⟩ := ih (m ++ [(v, f v)]) (fun w hw => hv w (by simp [hw])) (by
        intro e he
        rcases List.mem_append.1 he with he | he
        · exact hm e he
        · simp only [List.mem_singleton] at he; subst he; rfl)
      refine ⟨m', h1, h2, fun e he => h3 e (by simp [he]), ?_⟩
      intro w hw
      rcases List.mem_cons.1 hw with rfl | hw
      · exact ⟨(w, f w), h3 _ (by simp), rfl⟩
      · exact h4 w hw

/-! ### rows -/

theorem shiftDfs_eval (w y : F) (k : Int) (p : F[X]) : (shiftDfs w k p).eval y = p.eval (w ^ k * y) := by
  simp [shiftDfs, eval_comp]

theorem dfsPoly_eval_row (hL : L.Lawful A) (n : Nat) (hn : n ≤ A) (v : List F)
    (hv : v.length = 2 ^ n) (j : Nat) (hj : j < 2 ^ n) :
    (dfsPoly L v).eval (L.root n ^ j) = v.getD j 0 := by
  rw [dfsPoly, eval_toPoly]
  exact rowValue_coefficients hL n hn v hv j hj

/-- The value polynomial of a variable. -/
noncomputable def varPoly (L : FftLib F) (n : Nat) (t : PlonkTable F) (v : PlonkVar) : F[X] :=
  shiftDfs (L.root n) v.rotation (columnPoly L t v.index v.type)

theorem variablePoly_eq (n : Nat) (t : PlonkTable F) (v : PlonkVar) (h : t.HasVar v) :
    variablePoly L n t v = some (varPoly L n t v) := by
  obtain ⟨cols, hc, hi⟩ := h
  have hcol : columnPoly L t v.index v.type = dfsPoly L (cols.getD v.index []) := by
    simp [columnPoly, hc]
  have hget : cols[v.index]? = some (cols.getD v.index []) := by
    rw [List.getD_eq_getElem?_getD, List.getElem?_eq_getElem hi]; rfl
  simp only [variablePoly, hc, hget, Option.bind_eq_bind, Option.bind_some, varPoly, hcol]
  split_ifs with h0
  · simp only [FftLib.domain, pow_one]
  · simp only [not_not] at h0
    rw [h0]
    simp [shiftDfs]

theorem varPoly_eval_row (hL : L.Lawful A) (n : Nat) (hn : n ≤ A) (t : PlonkTable F)
    (hr : t.Rectangular (2 ^ n)) (v : PlonkVar) (h : t.HasVar v) (j : Nat) :
    (varPoly L n t v).eval (L.root n ^ j) = t.cyclicCell (2 ^ n) j v := by
  obtain ⟨cols, hc, hi⟩ := h
  have hlen : (cols.getD v.index []).length = 2 ^ n := by
    rw [List.getD_eq_getElem?_getD, List.getElem?_eq_getElem hi, Option.getD_some]
    have hmem := List.getElem_mem hi
    obtain ⟨h1, h2, h3, h4⟩ := hr
    cases htype : v.type <;> rw [htype] at hc <;> simp only [PlonkTable.columnsOf] at hc
    · cases hc; exact h1 _ hmem
    · cases hc; exact h2 _ hmem
    · cases hc; exact h3 _ hmem
    · cases hc; exact h4 _ hmem
    · exact absurd hc (by simp)
  set r := (((j : Int) + v.rotation) % ((2 ^ n : Nat) : Int)) with hrdef
  have hp : (0 : Int) < (2 ^ n : Nat) := by exact_mod_cast Nat.two_pow_pos n
  have hr0 : 0 ≤ r := Int.emod_nonneg _ hp.ne'
  have hr1 : r < (2 ^ n : Nat) := Int.emod_lt_of_pos _ hp
  have hpow : L.root n ^ v.rotation * L.root n ^ j = L.root n ^ r.toNat := by
    have hne := root_ne_zero hL n hn
    have hcard := root_pow_card hL n hn
    rw [← zpow_natCast, ← zpow_natCast, ← zpow_add₀ hne, Int.toNat_of_nonneg hr0]
    have hsum : v.rotation + (j : Int) = r + ((2 ^ n : Nat) : Int) * (((j : Int) + v.rotation) / ((2 ^ n : Nat) : Int)) := by
      rw [hrdef, add_comm v.rotation, Int.emod_add_mul_ediv]
    rw [hsum, zpow_add₀ hne, zpow_mul, zpow_natCast, hcard, one_zpow, mul_one]
  rw [varPoly, shiftDfs_eval, hpow, columnPoly, hc, Option.getD_some,
    dfsPoly_eval_row hL n hn _ hlen _ (by omega)]
  simp only [PlonkTable.cyclicCell, hc, Option.getD_some]
  rfl

theorem mask_eval_row (hL : L.Lawful A) (n : Nat) (hn : n ≤ A) (usable j : Nat) (hj : j < 2 ^ n) :
    (rowMask L n usable).eval (L.root n ^ j) = if j < usable then 1 else 0 := by
  rw [rowMask, gateMask, eval_sub, eval_sub, eval_one,
    dfsPoly_eval_row hL n hn _ (by simp [lagrangeValues]) j hj,
    dfsPoly_eval_row hL n hn _ (by simp [blindValues]) j hj]
  simp only [lagrangeValues, blindValues, List.getD_eq_getElem?_getD, List.getElem?_map,
    List.getElem?_range hj, Option.map_some, Option.getD_some]
  rcases lt_trichotomy j usable with h | h | h
  · rw [if_neg h.ne, if_neg (by omega), if_pos h]; ring
  · rw [if_pos h, if_neg (by omega), if_neg (by omega)]; ring
  · rw [if_neg h.ne', if_pos (by omega), if_neg (by omega)]; ring

/-! ### the verifier -/

theorem verifyConstraints_eq (evaluations : Nat → Int → ColumnType → Option F) (theta : F)
    (val : PlonkVar → F) : ∀ (cs : List (Expr PlonkVar F)) (acc res : F),
      (∀ c ∈ cs, ∀ v ∈ c.visitVars, evaluations v.index v.rotation v.type = some (val v)) →
      verifyConstraints evaluations theta cs acc res =
        some (res + acc * evalPoly (cs.map fun c => c.eval val) theta, acc * theta ^ cs.length) := by
  intro cs
  induction cs with
  | nil => intro acc res _; simp [verifyConstraints]
  | cons c cs ih =>
    intro acc res h
    have hc : evaluateOnMap evaluations c = some (c.eval val) := evalM_eq_eval _ val c (h c (by simp))
    simp only [verifyConstraints, hc, Option.bind_eq_bind, Option.bind_some]
    rw [ih _ _ (fun c' hc' => h c' (by simp [hc']))]
    simp only [List.map_cons, evalPoly_cons, List.length_cons, Option.some.injEq, Prod.mk.injEq]
    constructor <;> ring

theorem verifyGates_eq (evaluations : Nat → Int → ColumnType → Option F) (theta : F)
    (val : PlonkVar → F) : ∀ (gates : List (Gate F)) (acc f : F),
      (∀ g ∈ gates, evaluations g.selectorIndex 0 .selector =
          some (val ⟨g.selectorIndex, 0, false, .selector⟩) ∧
        ∀ c ∈ g.constraints, ∀ v ∈ c.visitVars, evaluations v.index v.rotation v.type = some (val v)) →
      verifyGates evaluations theta gates acc f =
        some (f + acc * evalPoly (gateValues gates val) theta) := by
  intro gates
  induction gates with
  | nil => intro acc f _; simp [verifyGates, gateValues]
  | cons g gs ih =>
    intro acc f h
    obtain ⟨h1, h2⟩ := h g (by simp)
    simp only [verifyGates, verifyConstraints_eq evaluations theta val g.constraints acc 0 h2, h1,
      Option.bind_eq_bind, Option.bind_some, Option.getD_some]
    rw [ih _ _ (fun g' hg' => h g' (by simp [hg'])),
      show gateValues (g :: gs) val =
        (g.constraints.map fun c => val ⟨g.selectorIndex, 0, false, .selector⟩ * c.eval val) ++
          gateValues gs val from rfl,
      evalPoly_append, evalPoly_map_left, List.length_map]
    congr 1
    ring

/-! ### the prover -/

theorem evaluateCached_fresh (get : PlonkVar → F[X]) (e : Expr PlonkVar F[X]) :
    (e.evaluateCached get ⟨[], []⟩).1 = e.eval get := by
  have := C07_cached_eq_plain e get 1
  simpa [Expr.cachedCalls] using this

theorem gateMaxDegree_some (d : Nat) (h : d < 2 ^ 31) : ∃ p, gateMaxDegree d = some p := by
  unfold gateMaxDegree
  have h1 : (d + 1) % 2 ^ 32 = d + 1 := Nat.mod_eq_of_lt (by omega)
  simp only [h1, Nat.add_eq_zero_iff, one_ne_zero, and_false, if_false]
  have : Nat.clog 2 (d + 1) ≤ 31 := Nat.clog_le_of_le_pow (by omega)
  have : 2 ^ Nat.clog 2 (d + 1) ≤ 2 ^ 31 := Nat.pow_le_pow_right (by norm_num) this
  exact ⟨_, if_pos (by omega)⟩

/-- What the prover computes: at every point, the random combination of the constraints times the mask. -/
theorem gateProve_eval {n usable : Nat} {t : PlonkTable F} {gates : List (Gate F)} {mgd : Nat}
    (h : GateSetup L A n usable t gates mgd) (ch : S → F × S) (mask : F[X]) (st : S) :
    ∃ p, gateProve ch L n t gates mgd mask st = some (p, (ch st).2) ∧
      ∀ y, p.eval y = evalPoly (gateValues gates fun v => (varPoly L n t v).eval y) (ch st).1 *
        mask.eval y := by
  obtain ⟨d, hd⟩ := gateMaxDegree_some mgd h.degree
  set es := gateLoop (ch st).1 (d / 2) gates 1 .empty .empty with hes
  have hvars : ∀ v, v ∈ es.1.visitVars ∨ v ∈ es.2.visitVars → variablePoly L n t v = some (varPoly L n t v) := by
    intro v hv
    apply variablePoly_eq
    rcases visit_gateLoop _ _ v _ _ _ _ hv with hv | hv | ⟨g, hg, hv⟩
    · simp [Expr.empty, Expr.visitVars, Term.ofConst] at hv
    · simp [Expr.empty, Expr.visitVars, Term.ofConst] at hv
    · obtain ⟨h1, h2⟩ := h.inTable g hg
      rcases hv with rfl | ⟨c, hc, hv⟩
      · exact ⟨t.selectors, rfl, h1⟩
      · exact h2 c hc v hv
  obtain ⟨m0, hm0, hm0', -, hm0m⟩ := buildVariables_ok n t (varPoly L n t) es.1.visitVars []
    (fun v hv => hvars v (Or.inl hv)) (by simp)
  obtain ⟨m1, hm1, hm1', -, hm1m⟩ := buildVariables_ok n t (varPoly L n t) es.2.visitVars
    (if (2 ^ n * d) % 2 ^ 32 / 2 ≠ (2 ^ n * d) % 2 ^ 32 then [] else m0)
    (fun v hv => hvars v (Or.inr hv)) (by
      split_ifs
      · simp
      · exact hm0')
  refine ⟨(es.1.eval (readVariable m0) + es.2.eval (readVariable m1)) * mask, ?_, ?_⟩
  · simp only [gateProve, hd, Option.bind_eq_bind, Option.bind_some, ← hes, hm0, hm1,
      evaluateCached_fresh]
  · intro y
    rw [C12_eval_congr es.1 _ (varPoly L n t) (fun v hv => readVariable_of_mem m0 _ hm0' v (hm0m v hv)),
      C12_eval_congr es.2 _ (varPoly L n t) (fun v hv => readVariable_of_mem m1 _ hm1' v (hm1m v hv)),
      eval_mul, eval_add]
    have := gateLoop_eval (ch st).1 (d / 2) (varPoly L n t) y gates 1 .empty .empty
    simp only [← hes, empty_eval, eval_zero, zero_add, one_mul] at this
    rw [this]

end Crypto3Zk
