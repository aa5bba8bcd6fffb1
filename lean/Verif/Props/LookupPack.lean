import Verif.Lemmas.LookupPack
import Verif.Props.LookupTables

/-!
# C63: horizontal packing of tables below the limit
-/

namespace Crypto3Zk

set_option linter.unusedSectionVars false

variable {F : Type} [Zero F] [One F] [NeZero (1 : F)] [DecidableEq F]

/-- C63, tables below the limit. On input that meets the contract (`HPackInput`), packing succeeds. Every
declared subtable is found under its identifier, with one option and a tag column of its own, and what it
offers is exactly its declared rows, in order. The number of usable rows does not exceed the limit, unless
it did so before. Columns and selectors not handed over are unchanged. The hypotheses exclude the three
cases in which the property is false: a table with as many rows as the limit
(`C63_full_table_overwritten`), one with more rows (`C63_loses_rows`), and two subtables of a table with
the same rows (`C63_wrong_column`). -/
theorem C63_small_tables_partial (ids : String → Option Nat) (numIds : Nat)
    (tables : List (LookupTableDef F)) (t : PlonkTable F) (constIds : List Nat)
    (curSel usable maxRows : Nat) (h : HPackInput ids numIds tables curSel t constIds maxRows) :
    ∃ lookups t' usable', packLookupTablesHorizontal ids numIds tables t constIds curSel usable maxRows =
        some (lookups, t', usable') ∧
      lookups.length = numIds ∧ usable ≤ usable' ∧ usable' ≤ max usable maxRows ∧
      t'.witnesses = t.witnesses ∧ t'.publicInputs = t.publicInputs ∧
      (∀ i, i ∉ constIds → t'.constants[i]? = t.constants[i]?) ∧
      (∀ j, j < curSel → t'.selectors[j]? = t.selectors[j]?) ∧
      (∀ i ∈ constIds, ∃ c, t'.constants[i]? = some c ∧ c.length ≤ usable') ∧
      ∀ d ∈ tables, ∃ start, ∀ sd ∈ d.subtables, ∃ id lt,
        ids (d.name ++ "/" ++ sd.name) = some id ∧ lookups[id - 1]? = some lt ∧
        lt.columnsNumber = sd.columns.length ∧ lt.options.length = 1 ∧ curSel ≤ lt.tagIndex ∧
        selectedRows t' lt.tagIndex = List.range' (start + sd.first) (sd.last + 1 - sd.first) ∧
        (∀ r ∈ selectedRows t' lt.tagIndex, r < usable') ∧
        offered t' lt = declared d sd := by
  set s0 : PackState F := ⟨List.replicate constIds.length (List.replicate usable 0), t.selectors,
    List.replicate numIds {}, curSel, usable, 1⟩ with hs0
  have hinv0 : HPackInv ids numIds constIds t.selectors curSel usable maxRows 0 0 [] (hSubsOf []) s0 := by
    refine ⟨by simp [hs0], ?_, le_rfl, le_max_left _ _, by simp [hs0], rfl, by simp [hs0, hSubsOf],
      fun _ _ => rfl, fun _ _ => rfl, by simp, by simp, by simp, by simp [hSubsOf]⟩
    intro c hc
    simp only [hs0] at hc ⊢
    rw [List.eq_of_mem_replicate hc]; simp
  obtain ⟨hs, es, hinv⟩ := hPackTables_spec tables [] (⟨s0, 0, 0, 0⟩ : HPackState F) hinv0 h.tableRect
    h.tableNonempty h.width h.below h.ranges h.room h.subColumns h.subRows h.idRange
    (by simpa [hSubsOf] using h.idNodup)
    (by intro j hj; exact h.selEmpty j (by simpa [hSubsOf] using hj))
  simp only [List.nil_append, show s0.startRow = 1 from rfl] at hinv
  set s := hs.core with hsdef
  have hfst : (constIds.zip s.constCols).map Prod.fst = constIds :=
    List.map_fst_zip (by rw [hinv.colsLen])
  obtain ⟨consts, ec, hc1, hc2⟩ := fillConstants_spec (constIds.zip s.constCols) t.constants
    (by rw [hfst]; exact h.constNodup) (by rw [hfst]; exact h.constEmpty)
  rw [hfst] at hc2
  have hcol : ∀ (c i : Nat), constIds[c]? = some i → ∃ cc, s.constCols[c]? = some cc ∧ consts[i]? = some cc := by
    intro c i hci
    have hlt : c < s.constCols.length := by
      rw [hinv.colsLen]; exact (List.getElem?_eq_some_iff.1 hci).1
    refine ⟨s.constCols[c], List.getElem?_eq_getElem hlt, hc1 _ _ ?_⟩
    apply List.mem_of_getElem? (i := c)
    rw [List.getElem?_zip_eq_some]
    exact ⟨hci, List.getElem?_eq_getElem hlt⟩
  refine ⟨s.bpTables, { t with constants := consts, selectors := s.selectors }, s.usableAfter, ?_,
    hinv.bpLen, hinv.usableLe, hinv.usableMax, rfl, rfl, hc2, hinv.earlier, ?_, ?_⟩
  · unfold packLookupTablesHorizontal
    simp only [← hs0, es, Option.bind_eq_bind, Option.bind_some, ← hsdef, ec]
    rfl
  · intro i hi
    obtain ⟨c, hlt, hci⟩ := List.getElem_of_mem hi
    obtain ⟨cc, h1, h2⟩ := hcol c i (by rw [List.getElem?_eq_getElem hlt, hci])
    exact ⟨cc, h2, hinv.colsLe cc (List.mem_of_getElem? h1)⟩
  · intro d hdm
    obtain ⟨start, base, hd⟩ := hPlacements_mem (maxRows := maxRows) hdm 1 0 0
    refine ⟨start, fun sd hsd => ?_⟩
    obtain ⟨id, tag, opt, len, selc, b1, b2, b3, b4, b5, b6, b7, b8, b9⟩ := hinv.subsOk start base d sd
      (List.mem_flatMap.2 ⟨(start, base, d), hd, List.mem_map.2 ⟨sd, hsd, rfl⟩⟩)
    have htab := hinv.tabsOk start base d hd
    have hsel : selectedRows (F := F) { t with constants := consts, selectors := s.selectors } tag =
        List.range' (start + sd.first) (sd.last + 1 - sd.first) := by
      unfold selectedRows
      have : s.selectors.getD tag [] = selc := by simp [List.getD, b9]
      simp only [this]
      exact selectorColumn_rows len start sd.first sd.last selc b8
    refine ⟨id, _, b1, b3, rfl, rfl, b5, hsel, ?_, ?_⟩
    · intro r hr
      simp only at hr
      have hr' := hr
      unfold selectedRows at hr'
      have hs : s.selectors.getD tag [] = selc := by simp [List.getD, b9]
      simp only [hs, List.mem_filter, List.mem_range] at hr'
      have hlen : selc.length = len := by
        unfold selectorColumn at b8
        split_ifs at b8
        simp only [Option.some.injEq] at b8
        rw [← b8]; simp
      omega
    · unfold offered declared
      simp only [List.flatMap_cons, List.flatMap_nil, List.append_nil, hsel]
      have hrange : List.range' (start + sd.first) (sd.last + 1 - sd.first) =
          (List.range' sd.first (sd.last + 1 - sd.first)).map fun r => start + r := by
        rw [List.map_add_range']
      rw [hrange, List.map_map]
      apply List.map_congr_left
      intro r hr
      rw [List.mem_range'_1] at hr
      have hrow : r < d.rowsNumber := by have := h.subRows d hdm sd hsd; omega
      simp only [Function.comp]
      have hcols := h.subColumns d hdm sd hsd
      clear hsel b3 hr
      revert b4
      generalize sd.columns = cols at hcols
      induction cols generalizing opt with
      | nil =>
        intro b4
        simp only [lookupOption, List.mapM_nil, Option.pure_def, Option.some.injEq] at b4
        subst b4; rfl
      | cons c cols ih =>
        intro b4
        simp only [lookupOption, List.mapM_cons, Option.bind_eq_bind, Option.bind_eq_some_iff,
          Option.pure_def, Option.some.injEq, Option.map_eq_some_iff] at b4
        obtain ⟨v, ⟨i, hi, rfl⟩, rest, hrest, rfl⟩ := b4
        have hrec := ih rest (fun c hc => hcols c (by simp [hc])) (by
          unfold lookupOption; exact hrest)
        obtain ⟨cc, hcc, hci⟩ := hcol (base + c) i hi
        have hclt := hcols c (by simp)
        have hget : d.table[c]? = some d.table[c] := List.getElem?_eq_getElem hclt
        obtain ⟨cc', hcc', hval⟩ := htab c _ hget
        rw [hcc] at hcc'
        obtain rfl : cc = cc' := by simpa using hcc'
        have hlen := h.tableRect d hdm _ (List.getElem_mem hclt)
        have hv := hval r _ (List.getElem?_eq_getElem (by rw [hlen]; exact hrow))
        unfold tupleAt at hrec ⊢
        rw [List.mapM_cons, List.mapM_cons, hrec]
        simp only [PlonkTable.columnsOf, hci, hget, Option.bind_eq_bind, Option.bind_some, hv]
        rw [List.getElem?_eq_getElem (by rw [hlen]; exact hrow)]
        rfl

/-- Two tables that do not fit below each other under the limit of six rows: the second opens a new
group of columns. -/
def exHTables : List (LookupTableDef ℚ) :=
  [⟨"a", [[1, 2, 3], [10, 20, 30]], 3, 2, [⟨"all", [0, 1], 0, 2⟩, ⟨"tail", [1], 1, 2⟩]⟩,
   ⟨"b", [[7, 8, 9]], 3, 1, [⟨"full", [0], 0, 2⟩]⟩]

def exHAssignment : PlonkTable ℚ := ⟨[[5]], [], [[], [9], [], []], [[1], [], [], []]⟩

example : HPackInput exIds 3 exHTables 1 exHAssignment [2, 0, 3] 6 := by
  refine ⟨?_, by decide +kernel, by decide +kernel, by decide +kernel, ?_⟩
  · constructor <;> decide +kernel
  · intro row col d hm
    simp only [hPlacements, exHTables] at hm
    norm_num at hm
    rcases hm with ⟨rfl, rfl, rfl⟩ | ⟨rfl, rfl, rfl⟩ <;> decide

example : (packLookupTablesHorizontal exIds 3 exHTables exHAssignment [2, 0, 3] 1 2 6).map
    (fun r => (r.2.2, r.2.1.constants, r.2.1.selectors)) =
    some (4, [[0, 10, 20, 30], [9], [0, 1, 2, 3], [0, 7, 8, 9]],
      [[1], [0, 1, 1, 1], [0, 0, 1, 1], [0, 1, 1, 1]]) := by decide +kernel

end Crypto3Zk
