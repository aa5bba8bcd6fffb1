import Verif.Lemmas.LookupRows
import Verif.Props.GateArg
import Mathlib.Data.List.Chain

/-!
# Soundness of the lookup argument
-/

namespace Crypto3Zk

set_option linter.unusedSectionVars false

open Polynomial

variable {F : Type} [Field F] [DecidableEq F] {S Com : Type} {L : FftLib F} {A n : Nat}
    {t : PlonkTable F} {sys : LookupSystem F} {pre : LookupData F}

/-! ## challenges -/

/-- Outside of a few points, equal products of linear factors come from the same list. -/
theorem perm_of_prod (P Q : List F) : ∃ bad : Finset F, bad.card ≤ P.length + Q.length ∧
    ∀ g ∉ bad, (P.map (g + ·)).prod = (Q.map (g + ·)).prod → P.Perm Q := by
  by_cases h : P.Perm Q
  · exact ⟨∅, by simp, fun _ _ _ => h⟩
  set p : List F → F[X] := fun l => ((l : Multiset F).map fun a => X - C (-a)).prod with hp
  have heval : ∀ l g, (p l).eval g = (l.map (g + ·)).prod := by
    intro l g
    simp only [hp, Multiset.map_coe, Multiset.prod_coe]
    induction l with
    | nil => simp
    | cons a l ih =>
      simp only [List.map_cons, List.prod_cons, eval_mul, ih, eval_sub, eval_X, eval_C]
      ring
  have hroots : ∀ l, (p l).roots = ((l : Multiset F).map fun a => -a) := by
    intro l
    have := roots_multiset_prod_X_sub_C ((l : Multiset F).map fun a => -a)
    rwa [Multiset.map_map] at this
  have hdeg : ∀ l, (p l).natDegree ≤ l.length := by
    intro l
    simp only [hp]
    refine (natDegree_multiset_prod_le _).trans ?_
    simp only [Multiset.map_map, Function.comp_def, natDegree_X_sub_C]
    simp
  have hne : p P - p Q ≠ 0 := by
    intro h0
    apply h
    have : (p P).roots = (p Q).roots := by rw [sub_eq_zero.1 h0]
    rw [hroots, hroots] at this
    have := (Multiset.map_injective neg_injective) this
    exact Multiset.coe_eq_coe.1 this
  refine ⟨(p P - p Q).roots.toFinset, ?_, ?_⟩
  · refine (Multiset.toFinset_card_le _).trans ((card_roots' _).trans ((natDegree_sub_le _ _).trans ?_))
    have h1 := hdeg P
    have h2 := hdeg Q
    omega
  · intro g hg he
    exfalso
    apply hg
    rw [Multiset.mem_toFinset, mem_roots hne, IsRoot.def, eval_sub, heval, heval, he, sub_self]

/-- Outside of a few points, a pair is determined by its compression. -/
theorem perm_of_map_pair (P Q : List (F × F)) :
    ∃ bad : Finset F, bad.card ≤ (P.length + Q.length) * (P.length + Q.length) + 1 ∧
      ∀ b ∉ bad, 1 + b ≠ 0 ∧
        ((P.map fun x => (x.1 + b * x.2) / (1 + b)).Perm (Q.map fun x => (x.1 + b * x.2) / (1 + b)) →
          P.Perm Q) := by
  set R : Finset (F × F) := (P ++ Q).toFinset with hR
  have hRc : R.card ≤ P.length + Q.length := by
    rw [← List.length_append]; exact List.toFinset_card_le _
  refine ⟨insert (-1) ((R ×ˢ R).image fun z => -(z.1.1 - z.2.1) / (z.1.2 - z.2.2)), ?_, ?_⟩
  · refine (Finset.card_insert_le _ _).trans ?_
    have := Finset.card_image_le (s := R ×ˢ R)
      (f := fun z : (F × F) × (F × F) => -(z.1.1 - z.2.1) / (z.1.2 - z.2.2))
    rw [Finset.card_product] at this
    have h2 : R.card * R.card ≤ (P.length + Q.length) * (P.length + Q.length) := Nat.mul_le_mul hRc hRc
    omega
  · intro b hb
    rw [Finset.mem_insert, not_or] at hb
    have hb1 : 1 + b ≠ 0 := fun h => hb.1 (by linear_combination h)
    refine ⟨hb1, fun hperm => ?_⟩
    set f : F × F → F := fun x => (x.1 + b * x.2) / (1 + b) with hf
    have hinj : ∀ x ∈ R, ∀ y ∈ R, f x = f y → x = y := by
      intro x hx y hy hxy
      simp only [hf] at hxy
      rw [div_left_inj' hb1] at hxy
      by_cases h2 : x.2 = y.2
      · rw [h2] at hxy
        exact Prod.ext (by linear_combination hxy) h2
      · exfalso
        apply hb.2
        rw [Finset.mem_image]
        refine ⟨(x, y), by simp [hx, hy], ?_⟩
        have : x.2 - y.2 ≠ 0 := sub_ne_zero.2 h2
        rw [div_eq_iff this]
        linear_combination -hxy
    have hleft : ∃ g : F → F × F, ∀ x ∈ R, g (f x) = x := by
      classical
      refine ⟨fun y => if h : ∃ x ∈ R, f x = y then h.choose else (0, 0), fun x hx => ?_⟩
      have h : ∃ x' ∈ R, f x' = f x := ⟨x, hx, rfl⟩
      simp only [dif_pos h]
      exact hinj _ h.choose_spec.1 _ hx h.choose_spec.2
    obtain ⟨g, hg⟩ := hleft
    have hid : ∀ l : List (F × F), (∀ x ∈ l, x ∈ R) → (l.map f).map g = l := by
      intro l hl
      rw [List.map_map]
      conv_rhs => rw [← List.map_id l]
      apply List.map_congr_left
      intro x hx
      simp [hg x (hl x hx)]
    have := hperm.map g
    rwa [hid P (fun x hx => by simp [hR, hx]), hid Q (fun x hx => by simp [hR, hx])] at this

theorem prod_pairFactor (P : List (F × F)) (b g : F) (hb : 1 + b ≠ 0) :
    (P.map (pairFactor b g)).prod =
      (1 + b) ^ P.length * ((P.map fun x => (x.1 + b * x.2) / (1 + b)).map (g + ·)).prod := by
  induction P with
  | nil => simp
  | cons x P ih =>
    simp only [List.map_cons, List.prod_cons, List.length_cons, ih, pairFactor]
    field_simp
    ring

/-- Outside of a few values of `beta` and then of `gamma`, equal products of pair factors come from the
same list of pairs, and the product is not zero. -/
theorem pairs_sound (P Q : List (F × F)) (hlen : P.length = Q.length) :
    ∃ badBeta : Finset F, badBeta.card ≤ (P.length + Q.length) * (P.length + Q.length) + 1 ∧
      ∀ b ∉ badBeta, ∃ badGamma : Finset F, badGamma.card ≤ 2 * P.length + Q.length ∧ ∀ g ∉ badGamma,
        (P.map (pairFactor b g)).prod ≠ 0 ∧
        ((P.map (pairFactor b g)).prod = (Q.map (pairFactor b g)).prod → P.Perm Q) := by
  obtain ⟨bb, hbb, hb⟩ := perm_of_map_pair P Q
  refine ⟨bb, hbb, fun b hbm => ?_⟩
  obtain ⟨hb1, hperm⟩ := hb b hbm
  obtain ⟨bg, hbg, hg⟩ := perm_of_prod (P.map fun x => (x.1 + b * x.2) / (1 + b))
    (Q.map fun x => (x.1 + b * x.2) / (1 + b))
  simp only [List.length_map] at hbg
  refine ⟨bg ∪ (P.map fun x => -((x.1 + b * x.2) / (1 + b))).toFinset, ?_, fun g hgm => ?_⟩
  · refine (Finset.card_union_le _ _).trans ?_
    have := List.toFinset_card_le (P.map fun x => -((x.1 + b * x.2) / (1 + b)))
    rw [List.length_map] at this
    omega
  · rw [Finset.mem_union, not_or] at hgm
    have hpow : (1 + b) ^ P.length ≠ 0 := pow_ne_zero _ hb1
    refine ⟨?_, fun he => ?_⟩
    · rw [prod_pairFactor P b g hb1]
      refine mul_ne_zero hpow ?_
      intro h0
      rw [List.prod_eq_zero_iff, List.map_map, List.mem_map] at h0
      obtain ⟨x, hx, h0⟩ := h0
      apply hgm.2
      rw [List.mem_toFinset, List.mem_map]
      exact ⟨x, hx, by simp only [Function.comp_apply] at h0; linear_combination -h0⟩
    · rw [prod_pairFactor P b g hb1, prod_pairFactor Q b g hb1, ← hlen] at he
      exact hperm (hg g hgm.1 (mul_left_cancel₀ hpow he))

/-! ## the sorted chain -/

theorem chain_const {a : F} : ∀ l : List (F × F),
    List.IsChain (fun p q => p.2 = q.1) ((a, a) :: l) → (∀ p ∈ l, p.1 = a → p = (a, a)) →
    ∀ p ∈ l, p = (a, a) := by
  intro l
  induction l with
  | nil => simp
  | cons q l ih =>
    intro hc h p hp
    rw [List.isChain_cons_cons] at hc
    have hq := h q (by simp) hc.1.symm
    rcases List.mem_cons.1 hp with rfl | hp
    · exact hq
    · rw [hq] at hc
      exact ih hc.2 (fun p hp => h p (by simp [hp])) p hp

theorem chain_const_rev {a : F} : ∀ l : List (F × F),
    List.IsChain (fun p q => p.2 = q.1) (l ++ [(a, a)]) → (∀ p ∈ l, p.2 = a → p = (a, a)) →
    ∀ p ∈ l, p = (a, a) := by
  intro l
  induction l using List.reverseRecOn with
  | nil => simp
  | append_singleton l q ih =>
    intro hc h p hp
    rw [List.isChain_append] at hc
    have hq := h q (by simp) (hc.2.2 q (by simp) (a, a) (by simp))
    rcases List.mem_append.1 hp with hp | hp
    · rw [hq] at hc
      exact ih hc.1 (fun p hp => h p (by simp [hp])) p hp
    · rw [List.mem_singleton.1 hp, hq]

/-- In a chain, a pair `(a, a)` such that `a` is in no other kind of pair fills the chain. -/
theorem chain_all {a : F} (l : List (F × F)) (hc : List.IsChain (fun p q => p.2 = q.1) l)
    (hm : (a, a) ∈ l) (h : ∀ p ∈ l, p.1 = a ∨ p.2 = a → p = (a, a)) : ∀ p ∈ l, p = (a, a) := by
  obtain ⟨l1, l2, rfl⟩ := List.append_of_mem hm
  intro p hp
  have h2 := (List.isChain_append.1 hc).2.1
  have h1 : List.IsChain (fun p q : F × F => p.2 = q.1) (l1 ++ [(a, a)]) := by
    rw [show l1 ++ (a, a) :: l2 = (l1 ++ [(a, a)]) ++ l2 by simp] at hc
    exact (List.isChain_append.1 hc).1
  rcases List.mem_append.1 hp with hp | hp
  · exact chain_const_rev l1 h1 (fun q hq he => h q (by simp [hq]) (.inr he)) p hp
  · rcases List.mem_cons.1 hp with rfl | hp
    · rfl
    · exact chain_const l2 h2 (fun q hq he => h q (by simp [hq]) (.inl he)) p hp

theorem isChain_column (c : List F) (U : Nat) :
    List.IsChain (fun p q : F × F => p.2 = q.1)
      ((List.range U).map fun j => (c.getD j 0, c.getD (j + 1) 0)) := by
  rw [List.isChain_map, List.isChain_iff_getElem]
  intro i hi
  simp

theorem isChain_cellPairs (U : Nat) (hU : 0 < U) : ∀ cols : List (List F),
    (∀ i, i + 1 < cols.length → (cols.getD (i + 1) []).getD 0 0 = (cols.getD i []).getD U 0) →
    List.IsChain (fun p q : F × F => p.2 = q.1) (cellPairs cols U) := by
  intro cols
  induction cols with
  | nil => intro _; simp [cellPairs]
  | cons c cols ih =>
    intro h
    rw [cellPairs, List.flatMap_cons, List.isChain_append]
    refine ⟨isChain_column c U, ih (fun i hi => by simpa using h (i + 1) (by simpa using hi)), ?_⟩
    intro x hx y hy
    cases cols with
    | nil => simp at hy
    | cons c' rest =>
      have h0 := h 0 (by simp)
      simp only [List.getD_cons_zero, List.getD_cons_succ, zero_add] at h0
      obtain ⟨u, rfl⟩ : ∃ u, U = u + 1 := ⟨U - 1, by omega⟩
      rw [List.range_succ, List.map_append, List.getLast?_append] at hx
      simp only [List.map_cons, List.map_nil, List.getLast?_singleton, Option.some_or,
        Option.mem_def, Option.some.injEq] at hx
      rw [List.flatMap_cons, List.range_succ_eq_map, List.map_cons, List.cons_append, List.head?_cons,
        Option.mem_def, Option.some.injEq] at hy
      rw [← hx, ← hy]
      exact h0.symm

/-- If the sorted columns overlap and have the same neighbouring pairs as the table, and for each input an
equal pair, then every input is zero or in the table. -/
theorem inputs_in_table {inputs values sorted : List (List F)} {U : Nat} (hU : 0 < U)
    (hv : values ≠ []) (hvs : ∀ c ∈ values, U ≤ c.length)
    (hlast : ∀ c ∈ values, c.getD U 0 = 0)
    (hover : ∀ i, i + 1 < sorted.length →
      (sorted.getD (i + 1) []).getD 0 0 = (sorted.getD i []).getD U 0)
    (hp : (cellPairs values U ++ (cells inputs U).map fun a => (a, a)).Perm (cellPairs sorted U)) :
    ∀ a ∈ cells inputs U, a = 0 ∨ a ∈ cells values U := by
  intro a ha
  by_contra hcon
  push Not at hcon
  obtain ⟨ha0, hac⟩ := hcon
  have hno : ∀ p ∈ cellPairs values U, p.1 ≠ a ∧ p.2 ≠ a := by
    intro p hp
    simp only [cellPairs, List.mem_flatMap, List.mem_map, List.mem_range] at hp
    obtain ⟨c, hc, j, hj, rfl⟩ := hp
    have hget : ∀ i < U, c.getD i 0 ≠ a := by
      intro i hi he
      apply hac
      rw [cells, List.mem_flatMap]
      refine ⟨c, hc, ?_⟩
      have hl := hvs c hc
      rw [List.getD_eq_getElem _ _ (show i < c.length by omega)] at he
      have hm := List.getElem_mem (l := c.take U) (n := i) (by rw [List.length_take]; omega)
      rw [List.getElem_take, he] at hm
      exact hm
    refine ⟨hget j hj, ?_⟩
    by_cases hj' : j + 1 < U
    · exact hget _ hj'
    · rw [show j + 1 = U by omega, hlast c hc]
      exact ha0.symm
  have hall := chain_all (a := a) (cellPairs sorted U) (isChain_cellPairs U hU sorted hover)
    (hp.mem_iff.1 (List.mem_append_right _ (List.mem_map.2 ⟨a, ha, rfl⟩))) (by
      intro p hpm he
      rcases List.mem_append.1 (hp.mem_iff.2 hpm) with h | h
      · exact absurd he (not_or.2 (hno p h))
      · obtain ⟨b, _, rfl⟩ := List.mem_map.1 h
        rcases he with rfl | rfl <;> rfl)
  obtain ⟨c, cs, rfl⟩ := List.exists_cons_of_ne_nil hv
  have hmem : (c.getD 0 0, c.getD (0 + 1) 0) ∈ cellPairs (c :: cs) U := by
    rw [cellPairs, List.flatMap_cons]
    exact List.mem_append_left _ (List.mem_map.2 ⟨0, List.mem_range.2 hU, rfl⟩)
  have := hall _ (hp.mem_iff.1 (List.mem_append_left _ hmem))
  exact (hno _ hmem).1 (congrArg Prod.fst this)

/-! ## the compression challenge -/

/-- Outside of a few points, lists with the same compression are the same polynomial. -/
theorem exists_bad_pair (l1 l2 : List F) (m : Nat) (h1 : l1.length ≤ m) (h2 : l2.length ≤ m) :
    ∃ bad : Finset F, bad.card ≤ m ∧ ∀ x ∉ bad, evalPoly l1 x = evalPoly l2 x → toPoly l1 = toPoly l2 := by
  by_cases h0 : toPoly l1 - toPoly l2 = 0
  · exact ⟨∅, by simp, fun _ _ _ => sub_eq_zero.1 h0⟩
  · refine ⟨(toPoly l1 - toPoly l2).roots.toFinset, ?_, ?_⟩
    · refine (Multiset.toFinset_card_le _).trans ((card_roots' _).trans ?_)
      have hd : (toPoly l1 - toPoly l2).degree < (m : WithBot ℕ) :=
        (degree_sub_le _ _).trans_lt (max_lt ((degree_toPoly l1).trans_le (by exact_mod_cast h1))
          ((degree_toPoly l2).trans_le (by exact_mod_cast h2)))
      rw [degree_eq_natDegree h0] at hd
      exact (WithBot.coe_lt_coe.1 hd).le
    · intro x hx he
      exfalso
      apply hx
      rw [Multiset.mem_toFinset, mem_roots h0, IsRoot.def, eval_sub, eval_toPoly, eval_toPoly, he, sub_self]

theorem exists_bad_pairs (m : Nat) : ∀ zs : List (List F × List F),
    (∀ z ∈ zs, z.1.length ≤ m ∧ z.2.length ≤ m) →
    ∃ bad : Finset F, bad.card ≤ zs.length * m ∧ ∀ x ∉ bad, ∀ z ∈ zs,
      evalPoly z.1 x = evalPoly z.2 x → toPoly z.1 = toPoly z.2 := by
  intro zs
  induction zs with
  | nil => intro _; exact ⟨∅, by simp, by simp⟩
  | cons z zs ih =>
    intro h
    obtain ⟨b1, c1, h1⟩ := exists_bad_pair z.1 z.2 m (h z (by simp)).1 (h z (by simp)).2
    obtain ⟨b2, c2, h2⟩ := ih (fun z hz => h z (by simp [hz]))
    refine ⟨b1 ∪ b2, ?_, ?_⟩
    · refine (Finset.card_union_le _ _).trans ?_
      rw [List.length_cons, Nat.add_mul, one_mul]
      omega
    · intro x hx z' hz'
      rw [Finset.mem_union, not_or] at hx
      rcases List.mem_cons.1 hz' with rfl | hz'
      · exact h1 x hx.1
      · exact h2 x hx.2 z' hz'

/-- The values compressed in the input columns and in the table columns. -/
def inputTuples (t : PlonkTable F) (sys : LookupSystem F) (n usable : Nat) : List (List F) :=
  sys.gates.flatMap fun g => g.constraints.flatMap fun c => (List.range usable).map fun j =>
    ((c.tableId : F) :: c.input.map fun e => e.eval (t.cyclicCell (2 ^ n) j))

def tableTuples (t : PlonkTable F) (sys : LookupSystem F) (usable : Nat) : List (List F) :=
  sys.tables.zipIdx.flatMap fun e => e.1.options.flatMap fun o => (List.range usable).map fun j =>
    (((e.2 + 1 : Nat) : F) :: optionRow t o j)

theorem sum_map_mul_const {X : Type} (l : List X) (f : X → Nat) (k : Nat) :
    (l.map fun x => f x * k).sum = (l.map f).sum * k := by
  induction l with
  | nil => simp
  | cons x l ih => simp [ih, Nat.add_mul]

theorem length_inputTuples (usable : Nat) :
    (inputTuples t sys n usable).length = sys.inputCount * usable := by
  simp only [inputTuples, List.length_flatMap, List.length_map, List.length_range, LookupSystem.inputCount]
  rw [← sum_map_mul_const]
  congr 1
  apply List.map_congr_left
  intro g _
  simp [List.map_const']

theorem sum_zipIdx (l : List LookupTable) (k : Nat) (f : LookupTable → Nat) :
    ((l.zipIdx k).map fun e => f e.1).sum = (l.map f).sum := by
  induction l generalizing k with
  | nil => rfl
  | cons a l ih => simp [List.zipIdx_cons, ih]

theorem length_tableTuples (usable : Nat) :
    (tableTuples t sys usable).length = sys.optionCount * usable := by
  simp only [tableTuples, List.length_flatMap, List.length_map, List.length_range,
    LookupSystem.optionCount]
  rw [← sum_map_mul_const, ← sum_zipIdx sys.tables 0]
  congr 1
  apply List.map_congr_left
  intro g _
  simp [List.map_const']

theorem length_compressedInputs (theta : F) :
    (compressedInputs t sys n theta).length = sys.inputCount := by
  simp [compressedInputs, LookupSystem.inputCount, List.length_flatMap]

theorem length_compressedValues (usable : Nat) (theta : F) :
    (compressedValues t sys n usable theta).length = sys.optionCount := by
  simp only [compressedValues, List.length_flatMap, List.length_map, LookupSystem.optionCount]
  exact sum_zipIdx sys.tables 0 fun tab => tab.options.length

theorem col_compressedInputs (theta : F) (c : List F) (hc : c ∈ compressedInputs t sys n theta) :
    c.length = 2 ^ n := by
  simp only [compressedInputs, List.mem_flatMap, List.mem_map] at hc
  obtain ⟨g, _, cc, _, rfl⟩ := hc
  simp

theorem col_compressedValues (usable : Nat) (theta : F) (c : List F)
    (hc : c ∈ compressedValues t sys n usable theta) : c.length = 2 ^ n := by
  simp only [compressedValues, List.mem_flatMap, List.mem_map] at hc
  obtain ⟨g, _, cc, _, rfl⟩ := hc
  simp

theorem last_compressedValues (usable : Nat) (hu : usable < 2 ^ n) (theta : F) (c : List F)
    (hc : c ∈ compressedValues t sys n usable theta) : c.getD usable 0 = 0 := by
  simp only [compressedValues, List.mem_flatMap, List.mem_map] at hc
  obtain ⟨g, _, cc, _, rfl⟩ := hc
  rw [List.getD_eq_getElem _ _ (by simpa using hu)]
  simp

theorem take_map_range {X : Type} (f : Nat → X) {a b : Nat} (h : a ≤ b) :
    ((List.range b).map f).take a = (List.range a).map f := by
  rw [← List.map_take, List.take_range, Nat.min_eq_left h]

theorem cells_compressedInputs (usable : Nat) (hu : usable ≤ 2 ^ n) (theta : F) :
    cells (compressedInputs t sys n theta) usable = sys.gates.flatMap fun g => g.constraints.flatMap fun c =>
      (List.range usable).map fun j => t.selectorAt g.tagIndex j *
        evalPoly ((c.tableId : F) :: c.input.map fun e => e.eval (t.cyclicCell (2 ^ n) j)) theta := by
  simp only [cells, compressedInputs, List.flatMap_assoc, List.flatMap_map, take_map_range _ hu]

theorem cells_compressedValues (usable : Nat) (hu : usable ≤ 2 ^ n) (theta : F) :
    cells (compressedValues t sys n usable theta) usable =
      sys.tables.zipIdx.flatMap fun e => e.1.options.flatMap fun o => (List.range usable).map fun j =>
        t.selectorAt e.1.tagIndex j * evalPoly (((e.2 + 1 : Nat) : F) :: optionRow t o j) theta := by
  simp only [cells, compressedValues, List.flatMap_assoc, List.flatMap_map, take_map_range _ hu]
  apply List.flatMap_congr
  intro e _
  apply List.flatMap_congr
  intro o _
  apply List.map_congr_left
  intro j hj
  rw [if_pos (List.mem_range.1 hj)]

/-- Outside of a few values of `theta`, inputs that are zero or in the table after compression are lookups
that hold. -/
theorem lookupsHold_of_cells (h : LookupSetup L A n t sys pre) (hw : LookupsWellFormed sys)
    (hb : TagsBoolean t sys pre.usable) (m : Nat) (hm : ∀ tab ∈ sys.tables, tab.columnsNumber + 1 ≤ m) :
    ∃ bad : Finset F, bad.card ≤ sys.inputCount * pre.usable * (sys.optionCount * pre.usable + 1) * m ∧
      ∀ theta ∉ bad,
        (∀ a ∈ cells (compressedInputs t sys n theta) pre.usable,
          a = 0 ∨ a ∈ cells (compressedValues t sys n pre.usable theta) pre.usable) →
        LookupsHold t sys pre.usable := by
  obtain ⟨bad, hc, hbad⟩ := exists_bad_pairs m
    ((inputTuples t sys n pre.usable).product ([] :: tableTuples t sys pre.usable)) (by
      intro z hz
      rw [List.product, List.mem_flatMap] at hz
      obtain ⟨l1, hl1, hz⟩ := hz
      obtain ⟨l2, hl2, rfl⟩ := List.mem_map.1 hz
      constructor
      · simp only [inputTuples, List.mem_flatMap, List.mem_map] at hl1
        obtain ⟨g, hg, c, hcc, j, _, rfl⟩ := hl1
        obtain ⟨k, tab, ht, _, hlen⟩ := hw.named g hg c hcc
        have := hm tab (List.mem_of_getElem? ht)
        simp only [List.length_cons, List.length_map]
        omega
      · rcases List.mem_cons.1 hl2 with rfl | hl2
        · simp
        · simp only [tableTuples, List.mem_flatMap, List.mem_map] at hl2
          obtain ⟨e, he, o, ho, j, _, rfl⟩ := hl2
          have ht := mem_tables_of_zipIdx _ _ he
          have := hm _ ht
          have hol := ((h.inTable.2 _ ht).2 o ho).1
          simp only [List.length_cons, optionRow, List.length_map]
          omega)
  refine ⟨bad, ?_, fun theta hth hcells => ?_⟩
  · refine hc.trans (le_of_eq ?_)
    rw [show ∀ a b : List (List F), (a.product b).length = a.length * b.length from
      fun a b => List.length_product a b, length_inputTuples, List.length_cons, length_tableTuples]
  · rw [cells_compressedInputs _ h.spare.le, cells_compressedValues _ h.spare.le] at hcells
    intro j hj g hg hsel c hcc
    obtain ⟨k, tab, ht, hid, hlen⟩ := hw.named g hg c hcc
    refine ⟨k, tab, ht, hid, ?_⟩
    have hk := (List.getElem?_eq_some_iff.1 ht).1
    set l1 : List F := ((c.tableId : F) :: c.input.map fun e => e.eval (t.cyclicCell (2 ^ n) j)) with hl1
    have hl1m : l1 ∈ inputTuples t sys n pre.usable := by
      simp only [inputTuples, List.mem_flatMap, List.mem_map]
      exact ⟨g, hg, c, hcc, j, List.mem_range.2 hj, rfl⟩
    have hsel1 : t.selectorAt g.tagIndex j = 1 := ((hb j hj).1 g hg).resolve_left hsel
    have hin := hcells (evalPoly l1 theta) (by
      simp only [List.mem_flatMap, List.mem_map]
      exact ⟨g, hg, c, hcc, j, List.mem_range.2 hj, by rw [hsel1, one_mul]⟩)
    have hne : evalPoly l1 theta ≠ 0 := by
      intro h0
      have := hbad theta hth (l1, []) (List.mem_flatMap.2 ⟨l1, hl1m, List.mem_map.2 ⟨[], by simp, rfl⟩⟩) (by simpa using h0)
      have := congrArg (fun p => coeff p 0) this
      simp only [coeff_toPoly, hl1, hid] at this
      exact hw.nonzero k hk (by simpa using this)
    rcases hin with h0 | hin
    · exact absurd h0 hne
    simp only [List.mem_flatMap, List.mem_map] at hin
    obtain ⟨e, he, o, ho, i, hi, heq⟩ := hin
    have hi' := List.mem_range.1 hi
    have htab := mem_tables_of_zipIdx _ _ he
    rcases (hb i hi').2 e.1 htab with htag | htag
    · rw [htag, zero_mul] at heq
      exact absurd heq.symm hne
    · rw [htag, one_mul] at heq
      have hmem2 : (((e.2 + 1 : Nat) : F) :: optionRow t o i) ∈ tableTuples t sys pre.usable := by
        simp only [tableTuples, List.mem_flatMap, List.mem_map]
        exact ⟨e, he, o, ho, i, hi, rfl⟩
      have hpoly := hbad theta hth (l1, (((e.2 + 1 : Nat) : F) :: optionRow t o i))
        (List.mem_flatMap.2 ⟨l1, hl1m, List.mem_map.2 ⟨_, List.mem_cons_of_mem _ hmem2, rfl⟩⟩) heq.symm
      have h0 := congrArg (fun p => coeff p 0) hpoly
      simp only [coeff_toPoly, hl1, hid, List.getD_cons_zero] at h0
      have hek := List.mem_zipIdx_iff_getElem?.1 he
      have hk2 := hw.distinct k hk e.2 (List.getElem?_eq_some_iff.1 hek).1 h0
      obtain rfl : tab = e.1 := by
        rw [hk2, hek] at ht
        exact (Option.some_inj.1 ht).symm
      have hol := ((h.inTable.2 _ htab).2 o ho).1
      have hlists := toPoly_injective (by simp [hl1, optionRow, hol, hlen]) hpoly
      refine ⟨o, ho, i, hi', by rw [htag]; exact one_ne_zero, ?_⟩
      rw [hl1, List.cons.injEq] at hlists
      rw [← hlists.2, List.map_map]
      apply List.map_congr_left
      intro ex hex
      exact evaluateAtRow_cyclic h.fits h.rect h.rows ex j ((h.inTable.1 g hg).2 c hcc ex hex)

/-! ## acceptance -/

theorem inputsAt_getD (h : LookupSetup L A n t sys pre) (theta : F) (j : Nat) (hj : j < 2 ^ n) :
    inputsAt sys theta (fun v => (varPoly L n t v).eval (L.root n ^ j)) =
      (compressedInputs t sys n theta).map (·.getD j 0) := by
  rw [inputsAt_row h theta j hj]
  simp only [compressedInputs, List.map_flatMap, List.map_map]
  apply List.flatMap_congr
  intro g _
  apply List.map_congr_left
  intro c _
  simp only [Function.comp_apply]
  rw [List.getD_eq_getElem _ _ (by simpa using hj)]
  simp

theorem valuesAt_getD (h : LookupSetup L A n t sys pre) (theta : F) (j : Nat) (hj : j < 2 ^ n) :
    (valuesAt sys theta (fun i => (columnPoly L t i .selector).eval (L.root n ^ j))
        (fun i => (columnPoly L t i .constant).eval (L.root n ^ j))).map
      (· * (1 - pre.qLast - pre.qBlind).eval (L.root n ^ j)) =
      (compressedValues t sys n pre.usable theta).map (·.getD j 0) := by
  rw [valuesAt_row h theta j hj]
  simp only [compressedValues, List.map_flatMap, List.map_map]
  apply List.flatMap_congr
  intro g _
  apply List.map_congr_left
  intro c _
  simp only [Function.comp_apply]
  rw [List.getD_eq_getElem _ _ (by simpa using hj)]
  simp

theorem verifyPartProducts_prod : ∀ (parts : List Nat) (xs : List F) (acc : F) (size : Nat) (gs : List F),
    (size = 0 → acc = 1) → verifyPartProducts parts xs acc size = some gs → gs.prod = acc * xs.prod := by
  intro parts xs
  induction xs generalizing parts with
  | nil =>
    intro acc size gs h0 h
    simp only [verifyPartProducts] at h
    split_ifs at h with hs
    simp only [Option.some.injEq] at h
    subst h
    rw [h0 hs]; simp
  | cons x xs ih =>
    intro acc size gs h0 h
    cases parts with
    | nil => simp [verifyPartProducts] at h
    | cons p ps =>
      simp only [verifyPartProducts] at h
      by_cases hp : size + 1 = p
      · rw [if_pos hp] at h
        obtain ⟨gs', hgs, rfl⟩ := Option.map_eq_some_iff.1 h
        rw [List.prod_cons, ih _ _ _ _ (fun _ => rfl) hgs, List.prod_cons]
        ring
      · rw [if_neg hp] at h
        rw [ih _ _ _ _ (fun h => by omega) h, List.prod_cons]
        ring

theorem verifyPartProducts_length : ∀ (parts : List Nat) (xs : List F) (acc : F) (size : Nat) (gs : List F),
    verifyPartProducts parts xs acc size = some gs → gs.length = parts.length →
    size + xs.length = parts.sum := by
  intro parts xs
  induction xs generalizing parts with
  | nil =>
    intro acc size gs h hl
    simp only [verifyPartProducts] at h
    split_ifs at h with hs
    simp only [Option.some.injEq] at h
    subst h
    rw [List.length_nil, eq_comm, List.length_eq_zero_iff] at hl
    simp [hs, hl]
  | cons x xs ih =>
    intro acc size gs h hl
    cases parts with
    | nil => simp [verifyPartProducts] at h
    | cons p ps =>
      simp only [verifyPartProducts] at h
      by_cases hp : size + 1 = p
      · rw [if_pos hp] at h
        obtain ⟨gs', hgs, rfl⟩ := Option.map_eq_some_iff.1 h
        have := ih _ _ _ _ hgs (by simpa using hl)
        simp only [List.length_cons, List.sum_cons]
        omega
      · rw [if_neg hp] at h
        have := ih _ _ _ _ h hl
        simp only [List.length_cons] at this ⊢
        omega

theorem verifyLookupParts_eq : ∀ (alphas gs hs parts : List F) (prev f : F), gs.length = hs.length →
    verifyLookupParts gs hs alphas parts prev f = verifyParts (gs.zip hs) alphas parts prev f := by
  intro alphas
  induction alphas with
  | nil => intro gs hs parts prev f _; simp [verifyLookupParts, verifyParts]
  | cons a as ih =>
    intro gs hs parts prev f hl
    cases gs with
    | nil =>
      rw [List.length_nil, eq_comm, List.length_eq_zero_iff] at hl
      subst hl
      simp [verifyLookupParts, verifyParts]
    | cons g gs =>
      cases hs with
      | nil => simp at hl
      | cons hd hs =>
        cases parts with
        | nil => simp [verifyLookupParts, verifyParts]
        | cons p ps =>
          simp only [List.zip_cons_cons, verifyLookupParts, verifyParts]
          exact ih gs hs ps p _ (by simpa using hl)

theorem verifyOverlap_set (l0 : F) : ∀ (s : List (F × F × F)) (alphas : List F) (i : Nat) (a f : F),
    i < alphas.length → i + 1 < s.length →
    verifyOverlap l0 s (alphas.set i a) f = verifyOverlap l0 s (alphas.set i 0) f +
      ((s.getD (i + 1) 0).1 - (s.getD i 0).2.2) * a * l0 := by
  have shift : ∀ (s : List (F × F × F)) (alphas : List F) (f d : F),
      verifyOverlap l0 s alphas (f + d) = verifyOverlap l0 s alphas f + d := by
    intro s
    induction s with
    | nil => intro alphas f d; simp [verifyOverlap]
    | cons x s ih =>
      intro alphas f d
      cases s with
      | nil => simp [verifyOverlap]
      | cons y rest =>
        cases alphas with
        | nil => simp [verifyOverlap]
        | cons al als =>
          simp only [verifyOverlap]
          rw [show f + d + (y.1 - x.2.2) * al * l0 = f + (y.1 - x.2.2) * al * l0 + d by ring, ih]
  intro s
  induction s with
  | nil => intro alphas i a f _ hi; simp at hi
  | cons x s ih =>
    intro alphas i a f ha hi
    cases s with
    | nil => simp at hi
    | cons y rest =>
      cases alphas with
      | nil => simp at ha
      | cons al als =>
        cases i with
        | zero =>
          simp only [List.set_cons_zero, verifyOverlap, List.getD_cons_zero, List.getD_cons_succ]
          rw [shift, shift]
          ring
        | succ i =>
          simp only [List.set_cons_succ, verifyOverlap, List.getD_cons_succ]
          rw [ih als i a _ (by simpa using ha) (by simpa using hi)]
          simp

/-- What acceptance of a row says. `sorted` has one column for each input and option. -/
theorem LookupRowsAccepted.row (h : LookupSetup L A n t sys pre) {ch : S → F × S} {absorb : Com → S → S}
    {com : Com} {st : S} {sorted : List (List F)} {V : List F} {parts : List (List F)}
    (hacc : LookupRowsAccepted ch absorb com st L n t sys pre sorted V parts)
    {theta beta gamma : F} {alphas : List F} (hth : theta = (ch st).1)
    (hb : beta = (ch (absorb com (ch st).2)).1) (hg : gamma = (ch (ch (absorb com (ch st).2)).2).1)
    (hal : alphas = (drawN ch ((sys.parts pre.mqc).length - 1) (ch (ch (absorb com (ch st).2)).2).2).1)
    (j : Nat) (hj : j < 2 ^ n) :
    (if j = 0 then 1 else 0) * (1 - (dfsPoly L V).eval (L.root n ^ j)) = 0 ∧
    (if j = pre.usable then 1 else 0) * ((dfsPoly L V).eval (L.root n ^ j) *
      (dfsPoly L V).eval (L.root n ^ j) - (dfsPoly L V).eval (L.root n ^ j)) = 0 ∧
    sorted.length = sys.inputCount + sys.optionCount ∧
    (j = 0 → verifyOverlap 1 (sorted.map fun c => ((dfsPoly L c).eval 1, (dfsPoly L c).eval (L.root n),
      (dfsPoly L c).eval (L.root n ^ pre.usable)))
      (drawN ch (sorted.length - 1) (drawN ch ((sys.parts pre.mqc).length - 1)
        (ch (ch (absorb com (ch st).2)).2).2).2).1 0 = 0) ∧
    (j < pre.usable → ∃ gs hs, verifyPartProducts (sys.parts pre.mqc)
        (((compressedInputs t sys n theta).map fun c => (1 + beta) * (gamma + c.getD j 0)) ++
          (compressedValues t sys n pre.usable theta).map fun c =>
            (1 + beta) * gamma + c.getD j 0 + beta * c.getD (j + 1) 0) 1 0 = some gs ∧
      verifyPartProducts (sys.parts pre.mqc) (sorted.map fun c => (1 + beta) * gamma +
        (dfsPoly L c).eval (L.root n ^ j) + beta * (dfsPoly L c).eval (L.root n ^ (j + 1))) 1 0 = some hs ∧
      gs.length = (sys.parts pre.mqc).length ∧ hs.length = (sys.parts pre.mqc).length ∧
      parts.length = (sys.parts pre.mqc).length - 1 ∧
      gs.prod = lookupNum (compressedInputs t sys n theta) (compressedValues t sys n pre.usable theta)
        beta gamma j ∧
      hs.prod = lookupDen (sorted.map fun c => rowsOf L n (dfsPoly L c)) beta gamma j ∧
      ((sys.parts pre.mqc).length = 1 → (dfsPoly L V).eval (L.root n ^ (j + 1)) * hs.prod =
        (dfsPoly L V).eval (L.root n ^ j) * gs.prod) ∧
      ((sys.parts pre.mqc).length ≠ 1 → ∃ r, verifyParts (gs.zip hs) alphas
          (parts.map fun p => (dfsPoly L p).eval (L.root n ^ j)) ((dfsPoly L V).eval (L.root n ^ j)) 0 =
            some r ∧
          r.1 + (r.2 * ((gs.zip hs).getD ((sys.parts pre.mqc).length - 1) (0, 0)).1 -
            (dfsPoly L V).eval (L.root n ^ (j + 1)) *
              ((gs.zip hs).getD ((sys.parts pre.mqc).length - 1) (0, 0)).2) = 0)) := by
  obtain ⟨st', hacc⟩ := hacc j hj
  have hpos := List.length_pos_of_ne_nil (parts_ne_nil sys pre.mqc)
  have hm : ∀ z, 1 - (pre.qLast.eval z + pre.qBlind.eval z) = (1 - pre.qLast - pre.qBlind).eval z := by
    intro z; simp only [eval_sub, eval_one]; ring
  have hvv := verifyValues_eq (tableEvaluations L n t (L.root n ^ j)) sys theta
    (1 - (pre.qLast.eval (L.root n ^ j) + pre.qBlind.eval (L.root n ^ j)))
    (1 - (pre.qLast.eval (L.root n * L.root n ^ j) + pre.qBlind.eval (L.root n * L.root n ^ j)))
    (fun i => (columnPoly L t i .selector).eval (L.root n ^ j))
    (fun i => (columnPoly L t i .selector).eval (L.root n * L.root n ^ j))
    (fun i => (columnPoly L t i .constant).eval (L.root n ^ j))
    (fun i => (columnPoly L t i .constant).eval (L.root n * L.root n ^ j))
    (fun tab htab o ho => ((h.inTable.2 tab htab).2 o ho).1) (fun tab htab => by
      simp [tableEvaluations])
  have hvi := verifyInputs_eq (tableEvaluations L n t (L.root n ^ j)) sys theta
    (fun v => (varPoly L n t v).eval (L.root n ^ j)) (fun g hg => by
      refine ⟨?_, fun c hc e he v hv => ?_⟩
      · rw [varPoly, shiftDfs_eval]; simp [tableEvaluations]
      · rw [varPoly, shiftDfs_eval]; simp [tableEvaluations])
  rw [inputsAt_getD h theta j hj] at hvi
  simp only [hm] at hvv
  rw [valuesAt_getD h theta j hj] at hvv
  unfold lookupVerify at hacc
  simp only [trueLookupClaims, List.length_map] at hacc
  rw [← hth] at hacc
  simp only [hm] at hacc
  rw [hvv] at hacc
  simp only [Option.bind_eq_bind, Option.bind_some] at hacc
  rw [hvi] at hacc
  simp only [Option.bind_some] at hacc
  rw [← hg, ← hb, ← hal] at hacc
  by_cases h1 : alphas.length ≠ parts.length
  · rw [if_pos h1] at hacc; simp at hacc
  rw [if_neg h1] at hacc
  push Not at h1
  have hall : alphas.length = (sys.parts pre.mqc).length - 1 := by rw [hal, length_drawN]
  obtain ⟨gs, hgs, hacc⟩ := Option.bind_eq_some_iff.1 hacc
  obtain ⟨hs, hhs, hacc⟩ := Option.bind_eq_some_iff.1 hacc
  by_cases h2 : gs.length ≠ parts.length + 1 ∨ hs.length ≠ parts.length + 1
  · rw [if_pos h2] at hacc; simp at hacc
  rw [if_neg h2] at hacc
  push Not at h2
  have hgl : gs.length = (sys.parts pre.mqc).length := by omega
  have hhl : hs.length = (sys.parts pre.mqc).length := by omega
  have hN : sorted.length = sys.inputCount + sys.optionCount := by
    have e1 := verifyPartProducts_length _ _ _ _ _ hgs hgl
    have e2 := verifyPartProducts_length _ _ _ _ _ hhs hhl
    have e3 : ∀ sel const mask, ((valuesAt sys theta sel const).map (· * mask)).length = sys.optionCount := by
      intro sel const mask
      simp only [valuesAt, List.length_map, List.length_flatMap, LookupSystem.optionCount]
      exact sum_zipIdx sys.tables 0 fun tab => tab.options.length
    simp only [List.length_append, List.length_map, List.length_zip, length_compressedInputs,
      length_compressedValues] at e1 e2
    have e4 := e3 (fun i => (columnPoly L t i .selector).eval (L.root n * L.root n ^ j))
      (fun i => (columnPoly L t i .constant).eval (L.root n * L.root n ^ j)) 1
    simp only [List.length_map] at e4
    omega
  have l0 := h.lagrange0_row j hj
  have ql := h.qLast_row j hj
  have mk := h.mask_row j hj
  rw [hm] at mk
  have key : ∃ F2, (1 - (dfsPoly L V).eval (L.root n ^ j)) * pre.lagrange0.eval (L.root n ^ j) = 0 ∧
      pre.qLast.eval (L.root n ^ j) * ((dfsPoly L V).eval (L.root n ^ j) *
        (dfsPoly L V).eval (L.root n ^ j) - (dfsPoly L V).eval (L.root n ^ j)) = 0 ∧
      F2 = 0 ∧ verifyOverlap (pre.lagrange0.eval (L.root n ^ j)) (sorted.map fun c =>
        ((dfsPoly L c).eval (L.root n ^ j), (dfsPoly L c).eval (L.root n * L.root n ^ j),
          (dfsPoly L c).eval (L.root n ^ pre.usable * L.root n ^ j)))
      (drawN ch (sorted.length - 1) (drawN ch ((sys.parts pre.mqc).length - 1)
        (ch (ch (absorb com (ch st).2)).2).2).2).1 0 = 0 ∧
      ((sys.parts pre.mqc).length = 1 → ∃ g hd, gs[0]? = some g ∧ hs[0]? = some hd ∧
        F2 = (1 - pre.qLast - pre.qBlind).eval (L.root n ^ j) *
          ((dfsPoly L V).eval (L.root n * L.root n ^ j) * hd - (dfsPoly L V).eval (L.root n ^ j) * g)) ∧
      ((sys.parts pre.mqc).length ≠ 1 → ∃ r g hd, verifyLookupParts gs hs alphas
          (parts.map fun p => (dfsPoly L p).eval (L.root n ^ j)) ((dfsPoly L V).eval (L.root n ^ j)) 0 =
            some r ∧ gs[alphas.length]? = some g ∧ hs[alphas.length]? = some hd ∧
          F2 = (r.1 + (r.2 * g - (dfsPoly L V).eval (L.root n * L.root n ^ j) * hd)) *
            (pre.qLast.eval (L.root n ^ j) + pre.qBlind.eval (L.root n ^ j) - 1)) := by
    by_cases hp : (sys.parts pre.mqc).length = 1
    · rw [if_pos hp] at hacc
      obtain ⟨g, hg0, hacc⟩ := Option.bind_eq_some_iff.1 hacc
      obtain ⟨hd, hh0, hacc⟩ := Option.bind_eq_some_iff.1 hacc
      simp only [Option.some.injEq, Prod.mk.injEq] at hacc
      obtain ⟨⟨e0, e1, e2, e3⟩, _⟩ := hacc
      exact ⟨_, e0, e1, e2, e3, fun _ => ⟨g, hd, hg0, hh0, rfl⟩, fun hp' => absurd hp hp'⟩
    · rw [if_neg hp] at hacc
      obtain ⟨r, hr, hacc⟩ := Option.bind_eq_some_iff.1 hacc
      obtain ⟨g, hg0, hacc⟩ := Option.bind_eq_some_iff.1 hacc
      obtain ⟨hd, hh0, hacc⟩ := Option.bind_eq_some_iff.1 hacc
      simp only [Option.some.injEq, Prod.mk.injEq] at hacc
      obtain ⟨⟨e0, e1, e2, e3⟩, _⟩ := hacc
      exact ⟨_, e0, e1, e2, e3, fun hp' => absurd hp' hp, fun _ => ⟨r, g, hd, hr, hg0, hh0, rfl⟩⟩
  obtain ⟨F2, e0, e1, e2, e3, k1, k2⟩ := key
  rw [l0] at e0 e3
  rw [ql] at e1
  refine ⟨by linear_combination e0, e1, hN, fun hj0 => ?_, fun hju => ?_⟩
  · subst hj0
    simpa using e3
  · rw [if_pos hju] at mk
    have hU := h.spare
    simp only [root_mul_pow] at hgs hhs k1 k2
    rw [show (1 - pre.qLast - pre.qBlind).eval (L.root n ^ (j + 1)) =
      (1 - pre.qLast - pre.qBlind).eval (L.root n ^ (j + 1)) from rfl] at hgs
    rw [valuesAt_getD h theta (j + 1) (by omega), List.zip_map', List.map_map, List.map_map] at hgs
    rw [List.map_map] at hhs
    refine ⟨gs, hs, hgs, hhs, hgl, hhl, by omega, ?_, ?_, fun hp => ?_, fun hp => ?_⟩
    · rw [verifyPartProducts_prod _ _ _ _ _ (fun _ => rfl) hgs, one_mul, List.prod_append, lookupNum_eq]
      congr 2
      apply List.map_congr_left
      intro c _
      simp only [Function.comp_apply, pairFactor]
      ring
    · rw [verifyPartProducts_prod _ _ _ _ _ (fun _ => rfl) hhs, one_mul, lookupDen_eq, List.map_map]
      congr 1
      apply List.map_congr_left
      intro c _
      simp only [Function.comp_apply, pairFactor]
      rw [rowsOf_getD _ _ hj, rowsOf_getD _ _ (by omega)]
    · obtain ⟨g, hd, hg0, hh0, he⟩ := k1 hp
      rw [mk, e2, one_mul] at he
      obtain ⟨g', rfl⟩ := List.length_eq_one_iff.1 (hgl.trans hp)
      obtain ⟨h', rfl⟩ := List.length_eq_one_iff.1 (hhl.trans hp)
      simp only [List.getElem?_cons_zero, Option.some.injEq] at hg0 hh0
      subst hg0 hh0
      simp only [List.prod_singleton]
      linear_combination -he
    · obtain ⟨r, g, hd, hr, hg0, hh0, he⟩ := k2 hp
      rw [verifyLookupParts_eq _ _ _ _ _ _ (by omega)] at hr
      refine ⟨r, hr, ?_⟩
      have hz : (gs.zip hs).getD ((sys.parts pre.mqc).length - 1) (0, 0) = (g, hd) := by
        rw [← hall, List.getD_eq_getElem?_getD, (List.getElem?_zip_eq_some (z := (g, hd))).2 ⟨hg0, hh0⟩]
        rfl
      rw [hz]
      have mk' : pre.qLast.eval (L.root n ^ j) + pre.qBlind.eval (L.root n ^ j) - 1 = -1 := by
        rw [← hm] at mk
        linear_combination -mk
      rw [mk', e2] at he
      linear_combination he

/-- The core: sorted columns, then `beta` and `gamma`. If the columns overlap and some running product
starts with one, ends with zero or one and has the right steps, then every compressed input is zero or in
the table. -/
theorem lookup_sound_steps (h : LookupSetup L A n t sys pre) (hopt : 0 < sys.optionCount) (theta : F)
    (sorted : List (List F)) (hlen : sorted.length = sys.inputCount + sys.optionCount)
    (hover : ∀ i, i + 1 < sorted.length → (sorted.getD (i + 1) []).getD 0 0 =
      (sorted.getD i []).getD pre.usable 0) :
    ∃ badBeta : Finset F, badBeta.card ≤
        (2 * ((sys.inputCount + sys.optionCount) * pre.usable)) ^ 2 + 1 ∧ ∀ beta ∉ badBeta,
      ∃ badGamma : Finset F, badGamma.card ≤ 3 * ((sys.inputCount + sys.optionCount) * pre.usable) ∧
        ∀ gamma ∉ badGamma, ∀ V : Nat → F, V 0 = 1 → V pre.usable = 0 ∨ V pre.usable = 1 →
          (∀ j < pre.usable, V (j + 1) * lookupDen sorted beta gamma j =
            V j * lookupNum (compressedInputs t sys n theta) (compressedValues t sys n pre.usable theta)
              beta gamma j) →
          ∀ a ∈ cells (compressedInputs t sys n theta) pre.usable,
            a = 0 ∨ a ∈ cells (compressedValues t sys n pre.usable theta) pre.usable := by
  have hU := h.spare
  have hin : ∀ c ∈ compressedInputs t sys n theta, pre.usable ≤ c.length := by
    intro c hc; rw [col_compressedInputs theta c hc]; exact hU.le
  have hva : ∀ c ∈ compressedValues t sys n pre.usable theta, pre.usable ≤ c.length := by
    intro c hc; rw [col_compressedValues _ theta c hc]; exact hU.le
  set P : List (F × F) := cellPairs (compressedValues t sys n pre.usable theta) pre.usable ++
    (cells (compressedInputs t sys n theta) pre.usable).map fun a => (a, a) with hP
  set Q : List (F × F) := cellPairs sorted pre.usable with hQ
  have hPl : P.length = (sys.inputCount + sys.optionCount) * pre.usable := by
    rw [hP, List.length_append, List.length_map, length_cellPairs,
      length_cells _ (col_compressedInputs theta) hU.le, length_compressedInputs, length_compressedValues, Nat.add_mul, Nat.add_comm]
  have hQl : Q.length = (sys.inputCount + sys.optionCount) * pre.usable := by
    rw [hQ, length_cellPairs, hlen]
  obtain ⟨bb, hbb, hb⟩ := pairs_sound P Q (by rw [hPl, hQl])
  refine ⟨bb, hbb.trans (le_of_eq ?_), fun beta hbeta => ?_⟩
  · rw [hPl, hQl]; ring
  obtain ⟨bg, hbg, hg⟩ := hb beta hbeta
  refine ⟨bg, hbg.trans (le_of_eq ?_), fun gamma hgamma V h0 h1 hstep => ?_⟩
  · rw [hPl, hQl]; ring
  obtain ⟨hne, hperm⟩ := hg gamma hgamma
  have hnum : ∏ j ∈ Finset.range pre.usable, lookupNum (compressedInputs t sys n theta)
      (compressedValues t sys n pre.usable theta) beta gamma j = (P.map (pairFactor beta gamma)).prod := by
    simp only [lookupNum_eq, Finset.prod_mul_distrib]
    rw [prod_cellPairs (compressedValues t sys n pre.usable theta),
      prod_cells _ _ hin (fun a => pairFactor beta gamma (a, a)), hP, List.map_append, List.prod_append,
      List.map_map, mul_comm]
    rfl
  have hden : ∏ j ∈ Finset.range pre.usable, lookupDen sorted beta gamma j =
      (Q.map (pairFactor beta gamma)).prod := by
    simp only [lookupDen_eq]
    rw [prod_cellPairs sorted]
  have htot := runningProduct_total _ _ V pre.usable hstep
  rw [hnum, hden, h0, one_mul] at htot
  have hV : V pre.usable = 1 := by
    rcases h1 with h1 | h1
    · rw [h1, zero_mul] at htot; exact absurd htot.symm hne
    · exact h1
  rw [hV, one_mul] at htot
  refine inputs_in_table h.used ?_ hva (fun c hc => last_compressedValues _ hU theta c hc) hover
    (hperm htot.symm)
  intro hnil
  have := length_compressedValues (t := t) (sys := sys) (n := n) pre.usable theta
  rw [hnil] at this
  simp at this
  omega

end Crypto3Zk
