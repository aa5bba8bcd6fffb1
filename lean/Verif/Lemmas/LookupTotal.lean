import Verif.Lemmas.LookupSound
import Verif.Props.PlonkTable

/-!
# The lookup prover gets through
-/

namespace Crypto3Zk

set_option linter.unusedSectionVars false

open Polynomial

variable {F : Type} [Field F] [DecidableEq F] {S Com : Type} {L : FftLib F} {A n : Nat}
    {t : PlonkTable F} {sys : LookupSystem F} {pre : LookupData F}

theorem updateLookupPart_defined (usable : Nat) (g h : F[X]) (prev cur : List F)
    (hp : prev.length = 2 ^ n) (hc : cur.length = 2 ^ n) (hu : usable ≤ 2 ^ n)
    (hne : ∀ j < usable, h.eval (L.root n ^ j) ≠ 0) :
    ∃ cur', updateLookupPart L n usable g h prev cur = some cur' := by
  unfold updateLookupPart
  rw [if_neg (by omega)]
  refine ⟨_, mapM_eq_some_map _ (fun j => if j < usable then
    prev.getD j 0 * g.eval (L.root n ^ j) * (h.eval (L.root n ^ j))⁻¹ else cur.getD j 0) _ ?_⟩
  intro j hj
  have hj' := List.mem_range.1 hj
  by_cases hju : j < usable
  · simp only [if_pos hju, if_neg (hne j hju)]
    rw [List.getElem?_eq_getElem (show j < prev.length by omega),
      List.getD_eq_getElem _ _ (show j < prev.length by omega)]
    rfl
  · simp only [if_neg hju]
    rw [List.getElem?_eq_getElem hj', List.getD_eq_getElem _ _ hj']

theorem lookupPartLoop_defined (usable : Nat) (hu : usable ≤ 2 ^ n) :
    ∀ (zs : List ((F[X] × F[X]) × F)) (prev cur : List F) (f : F[X]), prev.length = 2 ^ n →
      cur.length = 2 ^ n → (∀ z ∈ zs, ∀ j < usable, z.1.2.eval (L.root n ^ j) ≠ 0) →
      ∃ r, lookupPartLoop L n usable zs prev cur f = some r := by
  intro zs
  induction zs with
  | nil => intro prev cur f _ _ _; exact ⟨_, rfl⟩
  | cons z zs ih =>
    intro prev cur f hp hc h
    obtain ⟨cur', hcur⟩ := updateLookupPart_defined usable z.1.1 z.1.2 prev cur hp hc hu (h z (by simp))
    have hl := (updateLookupPart_spec hcur).1
    obtain ⟨r, hr⟩ := ih cur' cur' (f + C z.2 * (dfsPoly L prev * z.1.1 - dfsPoly L cur' * z.1.2))
      (by omega) (by omega) (fun z hz => h z (by simp [hz]))
    obtain ⟨⟨g, hd⟩, al⟩ := z
    exact ⟨(cur' :: r.1, r.2), by simp only [lookupPartLoop, hcur, Option.bind_eq_bind, Option.bind_some] at hr ⊢; rw [hr]; rfl⟩

theorem lookupProve_defined (h : LookupSetup L A n t sys pre) (ch : S → F × S) (absorb : Com → S → S)
    (commit : List (List F) → Com) (st : S)
    (hparts : ∀ p ∈ sys.parts pre.mqc, p ≠ 0)
    (hsum : (sys.parts pre.mqc).sum = sys.inputCount + sys.optionCount)
    (hsort : Sortable (compressedInputs t sys n (ch st).1)
      (compressedValues t sys n pre.usable (ch st).1) (2 ^ n) pre.usable)
    (hne : ∀ sorted, sortPolynomials (compressedInputs t sys n (ch st).1)
        (compressedValues t sys n pre.usable (ch st).1) (2 ^ n) pre.usable = some sorted →
      ∀ c ∈ sorted, ∀ j < pre.usable, pairFactor (ch (absorb (commit sorted) (ch st).2)).1
        (ch (ch (absorb (commit sorted) (ch st).2)).2).1 (c.getD j 0, c.getD (j + 1) 0) ≠ 0) :
    ∃ r, lookupProve ch absorb commit L n t sys pre st = some r := by
  obtain ⟨vs, hvs, hve⟩ := lookupValues_eval (L := L) (n := n) h.inTable (ch st).1
    (1 - pre.qLast - pre.qBlind)
  obtain ⟨ls, hls, hle⟩ := lookupInputs_eval (L := L) (n := n) h.inTable (ch st).1
  have hvr := valueRows_eq h (ch st).1 vs hve
  have hir := inputRows_eq h (ch st).1 ls hle
  have hs := sortPolynomials_eq hsort
  set sorted := finished ((compressedInputs t sys n (ch st).1).length +
      (compressedValues t sys n pre.usable (ch st).1).length) (2 ^ n) pre.usable
    (merged (cells (compressedValues t sys n pre.usable (ch st).1) pre.usable)
      (cells (compressedInputs t sys n (ch st).1) pre.usable)) with hsorted
  have hcol : ∀ c ∈ sorted, c.length = 2 ^ n := by
    intro c hc; rw [hsorted] at hc; exact length_finished_col _ _ hc
  have hlen : sorted.length = sys.inputCount + sys.optionCount := by
    rw [hsorted, ← length_compressedInputs (t := t) (n := n) (ch st).1,
      ← length_compressedValues (t := t) (n := n) pre.usable (ch st).1]
    simp [finished]
  have hne' := hne sorted hs
  set beta := (ch (absorb (commit sorted) (ch st).2)).1 with hbeta
  set gamma := (ch (ch (absorb (commit sorted) (ch st).2)).2).1 with hgamma
  have hU := h.spare
  have hden : ∀ j < pre.usable, lookupDen sorted beta gamma j ≠ 0 := by
    intro j hj
    rw [lookupDen_eq]
    intro h0
    rw [List.prod_eq_zero_iff, List.mem_map] at h0
    obtain ⟨c, hc, h0⟩ := h0
    exact hne' c hc j hj h0
  obtain ⟨V, hV⟩ := lookupV_defined (inputs := compressedInputs t sys n (ch st).1)
    (values := compressedValues t sys n pre.usable (ch st).1) hU hden
  have hVl := (lookupV_spec hV).1
  have hhead : ∀ p, (sys.parts pre.mqc).head? = some p → ([] : List F[X]).length < p := by
    intro p hp
    have := hparts p (List.mem_of_mem_head? hp)
    simp only [List.length_nil]; omega
  have hll : ls.length = sys.inputCount := by
    rw [← length_compressedInputs (t := t) (n := n) (ch st).1, ← hir, List.length_map]
  have hvl : vs.length = sys.optionCount := by
    rw [← length_compressedValues (t := t) (n := n) pre.usable (ch st).1, ← hvr, List.length_map]
  obtain ⟨gg, hgg, hgl⟩ := groupByParts_some (sys.parts pre.mqc)
    (gFactors (L.root n) ls vs beta gamma) [] hparts (fun _ => rfl) hhead
    (by simp [gFactors, hll, hvl, hsum])
  obtain ⟨hh, hhh, hhl⟩ := groupByParts_some (sys.parts pre.mqc)
    (hFactors (L.root n) (sorted.map (dfsPoly L)) beta gamma) [] hparts (fun _ => rfl) hhead
    (by simp [hFactors, hlen, hsum])
  have hpos := List.length_pos_of_ne_nil (parts_ne_nil sys pre.mqc)
  have hhne : ∀ g ∈ hh.map dfsProduct, ∀ j < pre.usable, g.eval (L.root n ^ j) ≠ 0 := by
    intro g hg j hj h0
    obtain ⟨fs, hfs, rfl⟩ := List.mem_map.1 hg
    rw [dfsProduct_eval, List.prod_eq_zero_iff, List.mem_map] at h0
    obtain ⟨f, hf, h0⟩ := h0
    have hmem : f ∈ hFactors (L.root n) (sorted.map (dfsPoly L)) beta gamma := by
      have := groupByParts_flatten _ _ _ _ hhh
      rw [List.nil_append] at this
      rw [← this]
      exact List.mem_flatten.2 ⟨fs, hfs, hf⟩
    simp only [hFactors, List.map_map, List.mem_map, Function.comp_apply] at hmem
    obtain ⟨c, hc, rfl⟩ := hmem
    apply hne' c hc j hj
    simp only [eval_add, eval_mul, eval_C, shiftDfs_eval, zpow_one, root_mul_pow] at h0
    rw [dfsPoly_eval_row h.lib n h.small c (hcol c hc) j (by omega),
      dfsPoly_eval_row h.lib n h.small c (hcol c hc) _ (by omega)] at h0
    exact h0
  unfold lookupProve
  simp only [hvs, hls, Option.bind_eq_bind, Option.bind_some, hvr, hir, hs]
  rw [← hgamma, ← hbeta, hV]
  simp only [Option.bind_some]
  rw [if_neg (by rw [hsum, hlen]; simp), hgg]
  simp only [Option.bind_some]
  rw [hhh]
  simp only [Option.bind_some]
  by_cases hp : (sys.parts pre.mqc).length = 1
  · rw [if_pos hp, List.getElem?_eq_getElem (by simp; omega), List.getElem?_eq_getElem (by simp; omega)]
    exact ⟨_, rfl⟩
  · rw [if_neg hp, if_neg (by simp [hgl, hhl])]
    obtain ⟨r, hr⟩ := lookupPartLoop_defined pre.usable hU.le (L := L)
      (((gg.map dfsProduct).zip (hh.map dfsProduct)).zip
        (drawN ch ((sys.parts pre.mqc).length - 1) (ch (ch (absorb (commit sorted) (ch st).2)).2).2).1)
      V V 0 hVl hVl (by
        intro z hz j hj
        have := (List.of_mem_zip (List.of_mem_zip (a := z.1) (b := z.2) hz).1).2
        exact hhne _ this j hj)
    rw [hr]
    simp only [Option.bind_some]
    rw [List.getElem?_eq_getElem (by rw [length_drawN]; simp; omega),
      List.getElem?_eq_getElem (by rw [length_drawN]; simp; omega)]
    exact ⟨_, rfl⟩

/-! ## tables and gates that can be sorted -/

/-- Outside of a few values of `theta`, laid out tables and lookups that hold can be sorted. -/
theorem sortable_of_holds (h : LookupSetup L A n t sys pre) (hw : LookupsWellFormed sys)
    (hb : TagsBoolean t sys pre.usable) (hlay : TablesLaidOut t sys pre.usable)
    (hold : LookupsHold t sys pre.usable) (m : Nat)
    (hm : ∀ tab ∈ sys.tables, tab.columnsNumber + 1 ≤ m) :
    ∃ bad : Finset F, bad.card ≤
        (sys.optionCount * pre.usable) * (sys.optionCount * pre.usable + 1) * m ∧
      ∀ theta ∉ bad, Sortable (compressedInputs t sys n theta)
        (compressedValues t sys n pre.usable theta) (2 ^ n) pre.usable := by
  have hlenT : ∀ l ∈ tableTuples t sys pre.usable, l.length ≤ m := by
    intro l hl
    simp only [tableTuples, List.mem_flatMap, List.mem_map] at hl
    obtain ⟨e, he, o, ho, j, _, rfl⟩ := hl
    have ht := mem_tables_of_zipIdx _ _ he
    have := hm _ ht
    have hol := ((h.inTable.2 _ ht).2 o ho).1
    simp only [List.length_cons, optionRow, List.length_map]
    omega
  obtain ⟨bad, hc, hbad⟩ := exists_bad_pairs m
    ((tableTuples t sys pre.usable).product ([] :: tableTuples t sys pre.usable)) (by
      intro z hz
      obtain ⟨l1, hl1, hz⟩ := List.mem_flatMap.1 hz
      obtain ⟨l2, hl2, rfl⟩ := List.mem_map.1 hz
      refine ⟨hlenT l1 hl1, ?_⟩
      rcases List.mem_cons.1 hl2 with rfl | hl2
      · simp
      · exact hlenT l2 hl2)
  refine ⟨bad, hc.trans (le_of_eq ?_), fun theta hth => ?_⟩
  · rw [show ∀ a b : List (List F), (a.product b).length = a.length * b.length from
      fun a b => List.length_product a b, List.length_cons, length_tableTuples]
  have hU := h.spare
  have hcv := cells_compressedValues (t := t) (sys := sys) (n := n) pre.usable hU.le theta
  -- each compressed entry is determined by the entry
  set comp : Option (Nat × List F) → F := fun e => match e with
    | none => 0
    | some (k, l) => evalPoly ((k : F) :: l) theta with hcomp
  have hcells : cells (compressedValues t sys n pre.usable theta) pre.usable =
      (tableEntries t sys pre.usable).map comp := by
    rw [hcv]
    simp only [tableEntries, List.map_flatMap, List.map_map]
    apply List.flatMap_congr
    intro e he
    apply List.flatMap_congr
    intro o _
    apply List.map_congr_left
    intro j hj
    simp only [Function.comp_apply]
    rcases (hb j (List.mem_range.1 hj)).2 e.1 (mem_tables_of_zipIdx _ _ he) with h0 | h0
    · rw [if_pos h0, h0, zero_mul]
    · rw [if_neg (by rw [h0]; exact one_ne_zero), h0, one_mul]
  have hentry : ∀ x ∈ tableEntries t sys pre.usable, ∀ k l, x = some (k, l) →
      ((k : F) :: l) ∈ tableTuples t sys pre.usable ∧ ∃ tab, sys.tables[k - 1]? = some tab ∧ 0 < k ∧
        l.length = tab.columnsNumber := by
    intro x hx k l hxe
    simp only [tableEntries, List.mem_flatMap, List.mem_map] at hx
    obtain ⟨e, he, o, ho, j, hj, rfl⟩ := hx
    split_ifs at hxe
    simp only [Option.some.injEq, Prod.mk.injEq] at hxe
    obtain ⟨rfl, rfl⟩ := hxe
    refine ⟨?_, e.1, by simpa using List.mem_zipIdx_iff_getElem?.1 he, by omega, ?_⟩
    · simp only [tableTuples, List.mem_flatMap, List.mem_map]
      exact ⟨e, he, o, ho, j, hj, rfl⟩
    · have := ((h.inTable.2 _ (mem_tables_of_zipIdx _ _ he)).2 o ho).1
      simp [optionRow, this]
  have hnz : ∀ x ∈ tableEntries t sys pre.usable, comp x = 0 → x = none := by
    intro x hx h0
    cases x with
    | none => rfl
    | some kl =>
      obtain ⟨k, l⟩ := kl
      obtain ⟨hmem, tab, htab, hk, _⟩ := hentry _ hx k l rfl
      exfalso
      have := hbad theta hth (((k : F) :: l), [])
        (List.mem_flatMap.2 ⟨_, hmem, List.mem_map.2 ⟨[], by simp, rfl⟩⟩) (by simpa [hcomp] using h0)
      have := congrArg (fun p => coeff p 0) this
      simp only [coeff_toPoly, List.getD_cons_zero] at this
      have hk' := (List.getElem?_eq_some_iff.1 htab).1
      have hnz := hw.nonzero (k - 1) hk'
      rw [show k - 1 + 1 = k by omega] at hnz
      exact hnz (by simpa using this)
  have hinj : ∀ x ∈ tableEntries t sys pre.usable, ∀ y ∈ tableEntries t sys pre.usable,
      comp x = comp y → x = y := by
    intro x hx y hy hxy
    cases x with
    | none => exact (hnz y hy (by rw [← hxy])).symm
    | some kl =>
      cases y with
      | none => exact hnz _ hx (by rw [hxy])
      | some kl' =>
        obtain ⟨k, l⟩ := kl
        obtain ⟨k', l'⟩ := kl'
        obtain ⟨hmem, tab, htab, hk, hl⟩ := hentry _ hx k l rfl
        obtain ⟨hmem', tab', htab', hk', hl'⟩ := hentry _ hy k' l' rfl
        have hpoly := hbad theta hth (((k : F) :: l), ((k' : F) :: l'))
          (List.mem_flatMap.2 ⟨_, hmem, List.mem_map.2 ⟨_, List.mem_cons_of_mem _ hmem', rfl⟩⟩)
          (by simpa [hcomp] using hxy)
        have h0 := congrArg (fun p => coeff p 0) hpoly
        simp only [coeff_toPoly, List.getD_cons_zero] at h0
        have hd := hw.distinct (k - 1) (List.getElem?_eq_some_iff.1 htab).1 (k' - 1)
          (List.getElem?_eq_some_iff.1 htab').1 (by
            rw [show k - 1 + 1 = k by omega, show k' - 1 + 1 = k' by omega]; exact h0)
        obtain rfl : k = k' := by omega
        rw [htab, Option.some_inj] at htab'
        subst htab'
        have hlists := toPoly_injective (by simp [hl, hl']) hpoly
        rw [List.cons.injEq] at hlists
        rw [hlists.2]
  have hne : compressedValues t sys n pre.usable theta ≠ [] := by
    intro hnil
    have := length_compressedValues (t := t) (sys := sys) (n := n) pre.usable theta
    rw [hnil, List.length_nil] at this
    have := hlay.some
    omega
  have hfirst : ∀ c ∈ compressedValues t sys n pre.usable theta, c.getD 0 0 = 0 := by
    intro c hc
    simp only [compressedValues, List.mem_flatMap, List.mem_map] at hc
    obtain ⟨e, he, o, _, rfl⟩ := hc
    rw [List.getD_eq_getElem _ _ (by simp)]
    simp [hlay.first e.1 (mem_tables_of_zipIdx _ _ he)]
  refine ⟨h.used, hU, col_compressedInputs theta, col_compressedValues _ theta, hne, hfirst,
    fun c hc => last_compressedValues _ hU theta c hc, ?_, ?_⟩
  · intro i j k hij hjk hk hi hik
    rw [hcells] at hi hik hk ⊢
    rw [List.length_map] at hk
    have hget : ∀ a, a < (tableEntries t sys pre.usable).length →
        ((tableEntries t sys pre.usable).map comp).getD a 0 =
          comp ((tableEntries t sys pre.usable).getD a none) ∧
        (tableEntries t sys pre.usable).getD a none ∈ tableEntries t sys pre.usable := by
      intro a ha
      rw [List.getD_eq_getElem _ _ (by simpa using ha), List.getD_eq_getElem _ _ ha]
      simp
    obtain ⟨gi, mi⟩ := hget i (by omega)
    obtain ⟨gj, mj⟩ := hget j (by omega)
    obtain ⟨gk, mk⟩ := hget k hk
    rw [gi] at hi hik ⊢
    rw [gk] at hik
    rw [gj]
    congr 1
    apply hlay.grouped i j k hij hjk hk
    · intro hn
      rw [hn] at hi
      exact hi rfl
    · exact hinj _ mi _ mk hik
  · intro x hx
    have hzero : (0 : F) ∈ cells (compressedValues t sys n pre.usable theta) pre.usable := by
      obtain ⟨c, cs, hcs⟩ := List.exists_cons_of_ne_nil hne
      rw [hcs, cells, List.flatMap_cons]
      apply List.mem_append_left
      have hcm : c ∈ compressedValues t sys n pre.usable theta := by rw [hcs]; simp
      have hf := hfirst c hcm
      have hl := col_compressedValues _ theta c hcm
      have hu := h.used
      rw [List.getD_eq_getElem _ _ (show 0 < c.length by omega)] at hf
      have hm := List.getElem_mem (l := c.take pre.usable) (n := 0) (by rw [List.length_take]; omega)
      rwa [List.getElem_take, hf] at hm
    rw [cells_compressedInputs _ hU.le] at hx
    simp only [List.mem_flatMap, List.mem_map] at hx
    obtain ⟨g, hg, c, hcc, j, hj, rfl⟩ := hx
    have hj' := List.mem_range.1 hj
    rcases (hb j hj').1 g hg with h0 | h0
    · rw [h0, zero_mul]; exact hzero
    · rw [h0, one_mul]
      obtain ⟨k, tab, htab, hid, o, ho, i, hi, htag, hrow⟩ :=
        hold j hj' g hg (by rw [h0]; exact one_ne_zero) c hcc
      have hrow' : (c.input.map fun e => e.eval (t.cyclicCell (2 ^ n) j)) = optionRow t o i := by
        have he : c.input.map (evaluateAtRow · j t) =
            (c.input.map fun e => e.eval (t.cyclicCell (2 ^ n) j)).map some := by
          rw [List.map_map]
          apply List.map_congr_left
          intro ex hex
          exact evaluateAtRow_cyclic h.fits h.rect h.rows ex j ((h.inTable.1 g hg).2 c hcc ex hex)
        rw [he] at hrow
        exact List.map_injective_iff.2 (Option.some_injective _) hrow
      rw [hrow', hid, hcv]
      simp only [List.mem_flatMap, List.mem_map]
      have htm := List.mem_of_getElem? htab
      have htag1 : t.selectorAt tab.tagIndex i = 1 := ((hb i hi).2 tab htm).resolve_left htag
      exact ⟨(tab, k), List.mem_zipIdx_iff_getElem?.2 htab, o, ho, i, List.mem_range.2 hi,
        by rw [htag1, one_mul]⟩

end Crypto3Zk
