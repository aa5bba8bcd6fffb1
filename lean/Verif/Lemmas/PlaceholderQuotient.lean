import Verif.Lemmas.PlaceholderDegree
import Verif.Spec.PlaceholderTotal
import Verif.Props.Quotient
import Verif.Props.PlonkTable

/-!
# The quotient of the placeholder prover fits its chunks
-/

set_option linter.unusedSectionVars false

namespace Crypto3Zk

open Polynomial

variable {F : Type} [Field F] [DecidableEq F] {S H Com Pr Data Obj : Type}
variable {L : FftLib F} {A n : Nat}

theorem list_sum_degree (m : Nat) : ∀ l : List F[X], (∀ f ∈ l, f.natDegree ≤ m) → l.sum.natDegree ≤ m := by
  intro l
  induction l with
  | nil => intro _; simp
  | cons f l ih =>
    intro h
    rw [List.sum_cons]
    exact natDegree_add_of (h f List.mem_cons_self) (ih fun g hg => h g (List.mem_cons_of_mem _ hg))

theorem consolidate_degree (m : Nat) (fs : List F[X]) (as : List F) (h : ∀ f ∈ fs, f.natDegree ≤ m) :
    (consolidate fs as).natDegree ≤ m := by
  unfold consolidate
  apply list_sum_degree
  intro f hf
  rw [← List.map_uncurry_zip_eq_zipWith, List.mem_map] at hf
  obtain ⟨⟨g, a⟩, hm, rfl⟩ := hf
  have hg := h g (List.of_mem_zip hm).1
  simp only [Function.uncurry]
  split_ifs
  · exact hg
  · exact natDegree_C_mul_of hg

theorem quotient_length (p : F[X]) (K : Nat) (hp : p.natDegree ≤ (K + 2) * (2 ^ n - 1)) :
    (polyDiv (coeffsOf p) (vanishingCoeffs (2 ^ n) : List F)).length ≤ (K + 1) * (2 ^ n - 1) := by
  rw [length_polyDiv]
  have hpos : 0 < 2 ^ n := Nat.two_pow_pos n
  have h1 : (vanishingCoeffs (2 ^ n) : List F).length = 2 ^ n + 1 := by simp [vanishingCoeffs]
  have h2 : (coeffsOf p).length = p.natDegree + 1 := by simp [coeffsOf]
  have h3 : (K + 2) * (2 ^ n - 1) = (K + 1) * (2 ^ n - 1) + (2 ^ n - 1) := by ring
  rw [h1, h2]
  omega

/-! ## degrees of the circuit -/

theorem foldl_max_mono {X : Type} (f : X → Nat) (l : List X) (a : Nat) : a ≤ l.foldl (fun d x => max d (f x)) a :=
  (foldl_max_le f l a).1

theorem foldl_nested_le {X Y : Type} (f : Y → Nat) (sub : X → List Y) (step : Nat → X → Nat)
    (hs : ∀ a x, a ≤ step a x ∧ ∀ y ∈ sub x, f y ≤ step a x) :
    ∀ (l : List X) (a : Nat), a ≤ l.foldl step a ∧ ∀ x ∈ l, ∀ y ∈ sub x, f y ≤ l.foldl step a := by
  intro l
  induction l with
  | nil => intro a; simp
  | cons x l ih =>
    intro a
    rw [List.foldl_cons]
    obtain ⟨h1, h2⟩ := ih (step a x)
    obtain ⟨h3, h4⟩ := hs a x
    refine ⟨h3.trans h1, ?_⟩
    intro x' hx' y hy
    rcases List.mem_cons.1 hx' with rfl | hx'
    · exact (h4 y hy).trans h1
    · exact h2 x' hx' y hy

theorem foldl_nested_lt {X Y : Type} (f : Y → Nat) (sub : X → List Y) (step : Nat → X → Nat) (B : Nat)
    (hs : ∀ a x, a < B → (∀ y ∈ sub x, f y < B) → step a x < B) :
    ∀ (l : List X) (a : Nat), a < B → (∀ x ∈ l, ∀ y ∈ sub x, f y < B) → l.foldl step a < B := by
  intro l
  induction l with
  | nil => intro a ha _; simpa using ha
  | cons x l ih =>
    intro a ha h
    rw [List.foldl_cons]
    exact ih _ (hs a x ha (h x List.mem_cons_self)) fun x' hx' => h x' (List.mem_cons_of_mem _ hx')

theorem foldl_max_lt {X : Type} (f : X → Nat) (B : Nat) : ∀ (l : List X) (a : Nat), a < B →
    (∀ x ∈ l, f x < B) → l.foldl (fun d x => max d (f x)) a < B := by
  intro l
  induction l with
  | nil => intro a ha _; simpa using ha
  | cons x l ih =>
    intro a ha h
    rw [List.foldl_cons]
    exact ih _ (max_lt ha (h x List.mem_cons_self)) fun x' hx' => h x' (List.mem_cons_of_mem _ hx')

theorem Circuit.degree_le_maxDegree {c : Circuit F} (hd : DegreesFit c) :
    ∀ g ∈ c.gates, ∀ e ∈ g.constraints, e.degree ≤ c.maxDegree := by
  have h1 : ∀ g ∈ c.gates, ∀ e ∈ g.constraints, e.maxDegree32 ≤ c.gatesDegree :=
    (foldl_nested_le (fun e : Expr PlonkVar F => e.maxDegree32) Gate.constraints _
      (fun a g => foldl_max_le _ _ _) c.gates 0).2
  have h2 : c.gatesDegree < 2 ^ 32 := by
    refine foldl_nested_lt (fun e : Expr PlonkVar F => e.maxDegree32) Gate.constraints
      (fun d g => g.constraints.foldl (fun d e => max d e.maxDegree32) d) (2 ^ 32)
      (fun a g ha h => foldl_max_lt _ _ _ _ ha h) _ 0 (by norm_num) ?_
    intro g hg e he
    rw [Expr.maxDegree32_eq e (hd.gates g hg e he)]
    exact hd.gates g hg e he
  have h3 : c.lookupGatesDegree < 2 ^ 32 := by
    refine foldl_nested_lt (fun k : LookupConstraint F => k.degree) LookupGate.constraints
      (fun d g => g.constraints.foldl (fun d c => c.input.foldl (fun d e => max d e.maxDegree32) d) d) (2 ^ 32)
      (fun a g ha h => ?_) _ 0 (by norm_num) ?_
    · refine foldl_nested_lt (fun e : Expr PlonkVar F => e.maxDegree32) LookupConstraint.input _ _
        (fun a k ha h => foldl_max_lt _ _ _ _ ha h) _ _ ha ?_
      intro k hk e he
      exact ((foldl_max_le (fun e : Expr PlonkVar F => e.maxDegree32) k.input 0).2 e he).trans_lt (h k hk)
    · intro g hg k hk
      refine foldl_max_lt _ _ _ _ (by norm_num) fun e he => ?_
      rw [Expr.maxDegree32_eq e (hd.inputs g hg k hk e he)]
      exact hd.inputs g hg k hk e he
  intro g hg e he
  unfold Circuit.maxDegree
  rw [Nat.mod_eq_of_lt (max_lt h2 h3), ← Expr.maxDegree32_eq e (hd.gates g hg e he)]
  exact (h1 g hg e he).trans (le_max_left _ _)

theorem foldl_add_mod {X : Type} (f : X → Nat) (B : Nat) : ∀ (l : List X) (a : Nat), a + (l.map f).sum < B →
    l.foldl (fun d x => (d + f x) % B) a = a + (l.map f).sum := by
  intro l
  induction l with
  | nil => intro a _; simp
  | cons x l ih =>
    intro a h
    rw [List.map_cons, List.sum_cons] at h ⊢
    rw [List.foldl_cons, Nat.mod_eq_of_lt (by omega), ih _ (by omega)]
    omega

theorem foldl_nested_add {X : Type} (f : X → Nat) (B : Nat) (step : Nat → X → Nat)
    (hs : ∀ a x, a + f x < B → step a x = a + f x) : ∀ (l : List X) (a : Nat), a + (l.map f).sum < B →
    l.foldl step a = a + (l.map f).sum := by
  intro l
  induction l with
  | nil => intro a _; simp
  | cons x l ih =>
    intro a h
    rw [List.map_cons, List.sum_cons] at h ⊢
    rw [List.foldl_cons, hs _ _ (by omega), ih _ (by omega)]
    omega

theorem sum_flatMap_map {X Y : Type} (sub : X → List Y) (f : Y → Nat) (l : List X) :
    (l.flatMap fun x => (sub x).map f).sum = (l.map fun x => ((sub x).map f).sum).sum := by
  induction l with
  | nil => rfl
  | cons x l ih => simp [ih]

theorem Circuit.lookupDegreeBound_eq {c : Circuit F} (hd : DegreesFit c) (hne : c.lookups.gates ≠ []) :
    c.lookupDegreeBound = c.lookupCosts.sum := by
  have ht := hd.total
  unfold Circuit.lookupCosts at ht ⊢
  rw [List.sum_append, sum_flatMap_map, List.sum_replicate, smul_eq_mul] at ht ⊢
  unfold Circuit.lookupDegreeBound
  rw [if_pos (List.length_pos_iff.2 hne)]
  dsimp only
  rw [foldl_nested_add (fun g : LookupGate F => (g.constraints.map fun k => k.degree + 1).sum) (2 ^ 32) _
    (fun a g h => foldl_add_mod (fun k : LookupConstraint F => k.degree + 1) _ _ _ h) _ _ (by omega)]
  have h3 : (c.lookups.tables.map fun t => 3 * t.options.length).sum = c.lookups.optionCount * 3 := by
    rw [List.sum_map_mul_left, Nat.mul_comm]; rfl
  rw [foldl_add_mod (fun t : LookupTable => 3 * t.options.length) _ _ _ (by rw [h3]; omega), h3]
  omega

theorem Circuit.lookupCosts_eq (c : Circuit F) :
    c.lookupCosts = (c.lookups.gates.flatMap fun g => g.constraints.map LookupConstraint.degree).map (· + 1) ++
      List.replicate (c.lookups.tables.map fun t => t.options.length).sum 3 := by
  unfold Circuit.lookupCosts
  rw [List.map_flatMap]
  simp [LookupSystem.optionCount, Function.comp_def]

theorem sum_le_flatten {runs : List (List Nat)} {r : List Nat} (h : r ∈ runs) : r.sum ≤ runs.flatten.sum := by
  induction runs with
  | nil => simp at h
  | cons x runs ih =>
    rw [List.flatten_cons, List.sum_append]
    rcases List.mem_cons.1 h with rfl | h
    · omega
    · have := ih h; omega

theorem mem_le_sum {l : List Nat} {x : Nat} (h : x ∈ l) : x ≤ l.sum := by
  induction l with
  | nil => simp at h
  | cons y l ih =>
    rw [List.sum_cons]
    rcases List.mem_cons.1 h with rfl | h
    · omega
    · have := ih h; omega

/-- The runs of factors of the lookup argument. -/
theorem lookup_runs {c : Circuit F} {mqc : Nat} (hne : c.lookups.gates ≠ []) (hl : LookupsWithinLimit c mqc) :
    ∃ runs : List (List Nat), runs.flatten = c.lookupCosts ∧ c.lookups.parts mqc = runs.map List.length ∧
      ∀ r ∈ runs, r.sum ≤ c.lookupCosts.sum ∧ (mqc ≠ 0 → r.sum ≤ mqc - 1) := by
  by_cases hm : mqc = 0
  · refine ⟨[c.lookupCosts], by simp, ?_, by simp [hm]⟩
    have h0 : c.lookups.gates.length ≠ 0 := fun h => hne (List.length_eq_zero_iff.1 h)
    rw [Circuit.lookupCosts_eq]
    unfold LookupSystem.parts lookupParts
    rw [if_pos hm, if_neg (by omega)]
    simp [Nat.add_comm]
  · obtain ⟨runs, h1, h2, h3, -⟩ := C29_parts_partial c.lookups.gates.length
      (c.lookups.gates.flatMap fun g => g.constraints.map LookupConstraint.degree)
      (c.lookups.tables.map fun t => t.options.length).sum mqc hm
    have hf : runs.flatten = c.lookupCosts := by rw [h1, Circuit.lookupCosts_eq]
    refine ⟨runs, hf, h2, ?_⟩
    intro r hr
    refine ⟨hf ▸ sum_le_flatten hr, fun _ => ?_⟩
    rcases h3 r hr with h | h
    · omega
    · match r, h with
      | [], _ => simp
      | [k], _ =>
        have hk : k ∈ c.lookupCosts := by rw [← hf]; exact List.mem_flatten.2 ⟨_, hr, by simp⟩
        rcases hl with h | h | h
        · exact absurd h hm
        · exact absurd h hne
        · have := h k hk
          simp only [List.sum_singleton]
          omega

variable {C : CommScheme F S Com Pr Data Obj} {T : PlonkTranscript S F H Com}
  {fuel : Nat} {d : TableDesc} {c : Circuit F} {order : List PlonkVar} {delta : F}
  {mqc : Nat} {hash : H} {t : PlonkTable F} {obj : Obj} {pd : PublicData F H Com Data} {o0 : Obj}

theorem PlonkTable.column_length {m : Nat} (hr : t.Rectangular m) (i : Nat) (col : List F)
    (h : t.column i = some col) : col.length = m := by
  rw [column_append] at h
  have hm := List.mem_of_getElem? h
  simp only [List.mem_append] at hm
  rcases hm with hm | hm | hm | hm
  · exact hr.1 _ hm
  · exact hr.2.1 _ hm
  · exact hr.2.2.1 _ hm
  · exact hr.2.2.2 _ hm

/-- The degree of the combined constraint polynomial. -/
theorem combined_degree (hS : PlaceholderSetup L A n fuel d c order t)
    (hp : PreFacts C T L n fuel d c order delta mqc hash t obj pd o0) (hd : DegreesFit c)
    {K : Nat} (hKd : c.maxDegree ≤ K)
    (hKp : order.length ≤ K ∨ 2 ≤ mqc ∧ mqc - 1 ≤ K)
    (runs : List (List Nat)) (hruns : c.lookups.gates ≠ [] → runs.flatten = c.lookupCosts ∧
      c.lookups.parts mqc = runs.map List.length ∧ ∀ r ∈ runs, r.sum ≤ K)
    {st1 st1' st2 st2' st3 st3' : S} {o1 o1' o2 o2' : Obj} {fp : F[X] × F[X] × F[X]}
    {fl : F[X] × F[X] × F[X] × F[X]} {lcom : Option Com} {fg : F[X]}
    (h1 : permStage C T L n d c order pd.perm t o1 st1 = some (fp, o1', st1'))
    (h2 : lookupStage C T L n c pd.perm t o2 st2 = some (fl, lcom, o2', st2'))
    (hsort : c.lookups.gates ≠ [] → Sortable (compressedInputs t c.lookups n (T.challenge st2).1)
        (compressedValues t c.lookups n d.usableRows (T.challenge st2).1) (2 ^ n) d.usableRows)
    (h3 : gateProve T.challenge L n t c.gates pd.common.maxGatesDegree
      (gateMask (toPoly pd.perm.qLast) (toPoly pd.perm.qBlind)) st3 = some (fg, st3'))
    (alphas : List F) :
    (consolidate [fp.1, fp.2.1, fp.2.2, fl.1, fl.2.1, fl.2.2.1, fl.2.2.2, fg] alphas).natDegree ≤
      (K + 2) * (2 ^ n - 1) := by
  have hL := hS.lib
  have hn := hS.small
  obtain ⟨q1, q2, q3, q4, -, -, -, q8, q9, q10, q11, q12, -⟩ := permPreprocess_shape hL hn hp.perm
  have hK1 : 1 ≤ K := by have := hp.degree_pos; omega
  have m2 : 2 * (2 ^ n - 1) ≤ (K + 2) * (2 ^ n - 1) := Nat.mul_le_mul_right _ (by omega)
  have m3 : 3 * (2 ^ n - 1) ≤ (K + 2) * (2 ^ n - 1) := Nat.mul_le_mul_right _ (by omega)
  have hpos : 0 < 2 ^ n := Nat.two_pow_pos n
  have hql : (toPoly pd.perm.qLast).natDegree ≤ 2 ^ n - 1 := toPoly_degree_le (by omega)
  have hqb : (toPoly pd.perm.qBlind).natDegree ≤ 2 ^ n - 1 := toPoly_degree_le (by omega)
  have hl0 : (toPoly pd.perm.lagrange0).natDegree ≤ 2 ^ n - 1 := toPoly_degree_le (by omega)
  have hP : fp.1.natDegree ≤ (K + 2) * (2 ^ n - 1) ∧ fp.2.1.natDegree ≤ (K + 2) * (2 ^ n - 1) ∧
      fp.2.2.natDegree ≤ (K + 2) * (2 ^ n - 1) := by
    obtain ⟨perm, -, ⟨-, -, rfl, -⟩ | ⟨-, gi, res, hgi, hpp, -, rfl⟩⟩ := permStage_spec h1
    · simp
    · have hgl : gi.length = order.length := length_mapM _ _ _ hgi
      obtain ⟨a, b, e⟩ := permProve_degree hL hn (K := K) (by rw [q11]; have := hS.usable; have := hS.rows; omega)
        q3 q4 q8 q9 q10 (column := fun i => (t.column i).map L.coefficients) (by
          intro i col hc
          simp only [Option.map_eq_some_iff] at hc
          obtain ⟨v, hv, rfl⟩ := hc
          exact (coefficients_column hL hn v (PlonkTable.column_length hS.fits.rect i v hv)).1)
        (by rw [q12, hgl]; omega) hpp
      exact ⟨a.trans m2, b, e.trans m3⟩
  have hl : fl.1.natDegree ≤ (K + 2) * (2 ^ n - 1) ∧ fl.2.1.natDegree ≤ (K + 2) * (2 ^ n - 1) ∧
      fl.2.2.1.natDegree ≤ (K + 2) * (2 ^ n - 1) ∧ fl.2.2.2.natDegree ≤ (K + 2) * (2 ^ n - 1) := by
    obtain ⟨sorted, vl, obj1, -, -, ⟨-, -, -, rfl, -⟩ | ⟨hne, commit, res, com, hpp, -, -, -, -, -, rfl⟩⟩ :=
      lookupStage_spec h2
    · simp
    · obtain ⟨r1, r2, r3⟩ := hruns hne
      have hs := hsort hne
      obtain ⟨a, b, e, f⟩ := lookupProve_degree (K := K) (hS.lookupSetup hp hne)
        (by simp only [lookupData, q11]; exact hs) hd.inputs hql hqb hl0 runs
        (by rw [r1, Circuit.lookupCosts_eq]) (by simp only [lookupData, q12]; exact r2) r3 hpp
      exact ⟨a.trans m2, b.trans m3, e, f.trans m2⟩
  have hg : fg.natDegree ≤ (K + 2) * (2 ^ n - 1) := by
    refine (gateProve_degree hL hn (columns_length hS.fits.rect) (Circuit.degree_le_maxDegree hd) ?_ h3).trans
      (Nat.mul_le_mul_right _ (by omega))
    exact natDegree_sub_of (natDegree_sub_of natDegree_one_of hql) hqb
  apply consolidate_degree
  intro f hf
  simp only [List.mem_cons, List.not_mem_nil, or_false] at hf
  rcases hf with rfl | rfl | rfl | rfl | rfl | rfl | rfl | rfl
  · exact hP.1
  · exact hP.2.1
  · exact hP.2.2
  · exact hl.1
  · exact hl.2.1
  · exact hl.2.2.1
  · exact hl.2.2.2
  · exact hg

/-- The quotient fits the chunks. -/
theorem quotient_fits (hS : PlaceholderSetup L A n fuel d c order t)
    (hp : PreFacts C T L n fuel d c order delta mqc hash t obj pd o0) (hd : DegreesFit c)
    (hlim : LookupsWithinLimit c mqc)
    {st1 st1' st2 st2' st3 st3' : S} {o1 o1' o2 o2' : Obj} {fp : F[X] × F[X] × F[X]}
    {fl : F[X] × F[X] × F[X] × F[X]} {lcom : Option Com} {fg : F[X]}
    (h1 : permStage C T L n d c order pd.perm t o1 st1 = some (fp, o1', st1'))
    (h2 : lookupStage C T L n c pd.perm t o2 st2 = some (fl, lcom, o2', st2'))
    (hsort : c.lookups.gates ≠ [] → Sortable (compressedInputs t c.lookups n (T.challenge st2).1)
        (compressedValues t c.lookups n d.usableRows (T.challenge st2).1) (2 ^ n) d.usableRows)
    (h3 : gateProve T.challenge L n t c.gates pd.common.maxGatesDegree
      (gateMask (toPoly pd.perm.qLast) (toPoly pd.perm.qBlind)) st3 = some (fg, st3'))
    (alphas : List F) :
    (quotientSplit (polyDiv (coeffsOf (consolidate [fp.1, fp.2.1, fp.2.2, fl.1, fl.2.1, fl.2.2.1, fl.2.2.2, fg]
      alphas)) pd.common.Z) pd.perm.sId.length c.lookupDegreeBound pd.common.maxGatesDegree d.rows
      pd.common.mqc).isSome := by
  obtain ⟨q1, -⟩ := permPreprocess_shape hS.lib hS.small hp.perm
  have hpos : 0 < 2 ^ n := Nat.two_pow_pos n
  rw [C36_defined, hp.Z, hS.rows, hp.mqcEq, hp.degree, q1]
  refine ⟨hpos, ?_⟩
  obtain ⟨runs, hr1, hr2, hr3⟩ : ∃ runs : List (List Nat), (c.lookups.gates ≠ [] → runs.flatten = c.lookupCosts) ∧
      (c.lookups.gates ≠ [] → c.lookups.parts mqc = runs.map List.length) ∧
      ∀ r ∈ runs, r.sum ≤ c.lookupDegreeBound ∧ (mqc ≠ 0 → r.sum ≤ mqc - 1) := by
    by_cases hne : c.lookups.gates = []
    · exact ⟨[], fun h => absurd hne h, fun h => absurd hne h, by simp⟩
    · obtain ⟨runs, a, b, e⟩ := lookup_runs hne hlim
      exact ⟨runs, fun _ => a, fun _ => b, by rw [Circuit.lookupDegreeBound_eq hd hne]; exact e⟩
  by_cases hcap : mqc = 0 ∨ splitPolynomialSize order.length c.lookupDegreeBound c.maxDegree (2 ^ n) 0 ≤ mqc
  · refine le_trans ?_ (splitPolynomialSize_rows _ _ _ _ _ hpos hcap)
    refine (quotient_length _ (max (max order.length c.lookupDegreeBound) c.maxDegree)
      (combined_degree hS hp hd (le_max_right _ _) (.inl ((le_max_left _ _).trans (le_max_left _ _))) runs
        (fun h => ⟨hr1 h, hr2 h, fun r hr => (hr3 r hr).1.trans ((le_max_right _ _).trans (le_max_left _ _))⟩)
        h1 h2 hsort h3 alphas)).trans (Nat.mul_le_mul_right _ ?_)
    omega
  · push Not at hcap
    have hmqc : 2 ≤ mqc := by
      have := hp.degree_pos
      rcases hp.limit with h | h
      · exact absurd h hcap.1
      · omega
    have hsize : splitPolynomialSize order.length c.lookupDegreeBound c.maxDegree (2 ^ n) mqc = mqc := by
      have h0 := hcap.2
      unfold splitPolynomialSize at h0 ⊢
      dsimp only at h0 ⊢
      rw [if_neg (by simp)] at h0
      rw [if_pos ⟨hcap.1, h0⟩]
    rw [hsize]
    refine (quotient_length _ (mqc - 1)
      (combined_degree hS hp hd (by rcases hp.limit with h | h <;> omega) (.inr ⟨hmqc, le_rfl⟩) runs
        (fun h => ⟨hr1 h, hr2 h, fun r hr => (hr3 r hr).2 hcap.1⟩)
        h1 h2 hsort h3 alphas)).trans ?_
    rw [Nat.sub_add_cancel (by omega), Nat.mul_comm]
    exact Nat.mul_le_mul_right _ (by omega)

end Crypto3Zk
