import Verif.Lemmas.LookupTables
import Mathlib.Algebra.Field.Rat

/-!
# C30 packing of lookup tables
-/

namespace Crypto3Zk

set_option linter.unusedSectionVars false

variable {F : Type} [Zero F] [One F] [NeZero (1 : F)] [DecidableEq F]

/-- C30. On input that meets the contract (`PackInput`), packing succeeds. Every declared subtable is
found under its identifier, with one option, and what it offers -- the tuples of the option in the
rows its tag column switches on -- is exactly its declared rows, in order. The rows lie in the
table's own block: blocks follow each other from row 1 on, and end within the reported number of
usable rows, which is at least the old one. Columns not handed over are unchanged. -/
theorem C30_pack (ids : String → Option Nat) (numIds : Nat) (tables : List (LookupTableDef F))
    (gs lts : List Nat) (t : PlonkTable F) (constIds : List Nat) (usable : Nat)
    (h : PackInput ids numIds tables (firstSelector gs lts) t constIds) :
    ∃ lookups t' usable', packLookupTables ids numIds tables gs lts t constIds usable =
        some (lookups, t', usable') ∧
      lookups.length = numIds ∧ usable ≤ usable' ∧
      t'.witnesses = t.witnesses ∧ t'.publicInputs = t.publicInputs ∧
      (∀ i, i ∉ constIds → t'.constants[i]? = t.constants[i]?) ∧
      (∀ j, j < firstSelector gs lts → t'.selectors[j]? = t.selectors[j]?) ∧
      (∀ i ∈ constIds, ∃ c, t'.constants[i]? = some c ∧ c.length ≤ usable') ∧
      ∀ start d, (start, d) ∈ placements 1 tables → ∀ sd ∈ d.subtables, ∃ id lt,
        ids (d.name ++ "/" ++ sd.name) = some id ∧ lookups[id - 1]? = some lt ∧
        lt.columnsNumber = sd.columns.length ∧ lt.options.length = 1 ∧
        firstSelector gs lts ≤ lt.tagIndex ∧
        selectedRows t' lt.tagIndex = List.range' (start + sd.first) (sd.last + 1 - sd.first) ∧
        (∀ r ∈ selectedRows t' lt.tagIndex, r < usable') ∧
        offered t' lt = declared d sd := by
  set sel0 := firstSelector gs lts with hsel0
  set s0 : PackState F := ⟨List.replicate constIds.length (List.replicate usable 0), t.selectors,
    List.replicate numIds {}, sel0, usable, 1⟩ with hs0
  have hinv0 : PackInv ids numIds constIds t.selectors sel0 usable [] (subsOf []) s0 := by
    refine ⟨by simp [hs0], ?_, le_rfl, by simp [hs0], rfl, by simp [hs0, subsOf], fun _ _ => rfl,
      fun _ _ => rfl, by simp, by simp [subsOf]⟩
    intro c hc
    simp only [hs0] at hc ⊢
    rw [List.eq_of_mem_replicate hc]; simp
  obtain ⟨s, es, hinv⟩ := packTables_spec tables [] s0 hinv0 (by simp) h.tableRect h.tableFits
    h.subColumns (fun d hd sd hsd => ⟨h.subRows d hd sd hsd, Or.inl (h.tableNonempty d hd)⟩) h.idRange
    (by simpa [subsOf] using h.idNodup)
    (by intro j hj; exact h.selEmpty j (by simpa [subsOf] using hj))
  simp only [List.nil_append, show s0.startRow = 1 from rfl] at hinv
  have hfst : (constIds.zip s.constCols).map Prod.fst = constIds :=
    List.map_fst_zip (by rw [hinv.colsLen])
  obtain ⟨consts, ec, hc1, hc2⟩ := fillConstants_spec (constIds.zip s.constCols) t.constants
    (by rw [hfst]; exact h.constNodup) (by rw [hfst]; exact h.constEmpty)
  rw [hfst] at hc2
  have hcol : ∀ (c i : Nat), constIds[c]? = some i → ∃ cc, s.constCols[c]? = some cc ∧ consts[i]? = some cc := by
    intro c i hci
    have hlt : c < s.constCols.length := by
      rw [hinv.colsLen]; exact (List.getElem?_eq_some_iff.1 hci).1
    refine ⟨s.constCols[c], List.getElem?_eq_getElem hlt, hc1 _ _ ?_⟩
    apply List.mem_of_getElem? (i := c)
    rw [List.getElem?_zip_eq_some]
    exact ⟨hci, List.getElem?_eq_getElem hlt⟩
  refine ⟨s.bpTables, { t with constants := consts, selectors := s.selectors }, s.usableAfter, ?_,
    hinv.bpLen, hinv.usableLe, rfl, rfl, hc2, hinv.earlier, ?_, ?_⟩
  · unfold packLookupTables
    simp only [← hsel0, ← hs0, es, Option.bind_eq_bind, Option.bind_some, ec]
    rfl
  · intro i hi
    obtain ⟨c, hlt, hci⟩ := List.getElem_of_mem hi
    obtain ⟨cc, h1, h2⟩ := hcol c i (by rw [List.getElem?_eq_getElem hlt, hci])
    exact ⟨cc, h2, hinv.colsLe cc (List.mem_of_getElem? h1)⟩
  · intro start d hd sd hsd
    obtain ⟨-, hdm⟩ := placements_mem_start hd
    obtain ⟨id, tag, opt, len, selc, b1, b2, b3, b4, b5, b6, b7, b8, b9⟩ := hinv.subsOk start d sd
      (List.mem_flatMap.2 ⟨(start, d), hd, List.mem_map.2 ⟨sd, hsd, rfl⟩⟩)
    obtain ⟨-, htab⟩ := hinv.tabsOk start d hd
    have hsel : selectedRows (F := F) { t with constants := consts, selectors := s.selectors } tag =
        List.range' (start + sd.first) (sd.last + 1 - sd.first) := by
      unfold selectedRows
      have : s.selectors.getD tag [] = selc := by simp [List.getD, b9]
      simp only [this]
      exact selectorColumn_rows len start sd.first sd.last selc b8
    refine ⟨id, _, b1, b3, rfl, rfl, b5, hsel, ?_, ?_⟩
    · intro r hr
      simp only at hr
      have hr' := hr
      unfold selectedRows at hr'
      have hs : s.selectors.getD tag [] = selc := by simp [List.getD, b9]
      simp only [hs, List.mem_filter, List.mem_range] at hr'
      have hlen : selc.length = len := by
        unfold selectorColumn at b8
        split_ifs at b8
        simp only [Option.some.injEq] at b8
        rw [← b8]; simp
      omega
    · unfold offered declared
      simp only [List.flatMap_cons, List.flatMap_nil, List.append_nil, hsel]
      have hrange : List.range' (start + sd.first) (sd.last + 1 - sd.first) =
          (List.range' sd.first (sd.last + 1 - sd.first)).map fun r => start + r := by
        rw [List.map_add_range']
      rw [hrange, List.map_map]
      apply List.map_congr_left
      intro r hr
      rw [List.mem_range'_1] at hr
      have hrow : r < d.rowsNumber := by have := h.subRows d hdm sd hsd; omega
      simp only [Function.comp]
      -- option variables and columns correspond one to one
      have hcols := h.subColumns d hdm sd hsd
      clear hsel b3 hr
      revert b4
      generalize sd.columns = cols at hcols
      induction cols generalizing opt with
      | nil =>
        intro b4
        simp only [lookupOption, List.mapM_nil, Option.pure_def, Option.some.injEq] at b4
        subst b4; rfl
      | cons c cols ih =>
        intro b4
        simp only [lookupOption, List.mapM_cons, Option.bind_eq_bind, Option.bind_eq_some_iff,
          Option.pure_def, Option.some.injEq, Option.map_eq_some_iff, Nat.zero_add] at b4
        obtain ⟨v, ⟨i, hi, rfl⟩, rest, hrest, rfl⟩ := b4
        have hrec := ih rest (fun c hc => hcols c (by simp [hc])) (by
          unfold lookupOption; simpa only [Nat.zero_add] using hrest)
        obtain ⟨cc, hcc, hci⟩ := hcol c i hi
        have hclt := hcols c (by simp)
        have hget : d.table[c]? = some d.table[c] := List.getElem?_eq_getElem hclt
        obtain ⟨cc', hcc', hval⟩ := htab c _ hget
        rw [hcc] at hcc'
        obtain rfl : cc = cc' := by simpa using hcc'
        have hlen := h.tableRect d hdm _ (List.getElem_mem hclt)
        have hv := hval r _ (List.getElem?_eq_getElem (by rw [hlen]; exact hrow))
        unfold tupleAt at hrec ⊢
        rw [List.mapM_cons, List.mapM_cons, hrec]
        simp only [PlonkTable.columnsOf, hci, hget, Option.bind_eq_bind, Option.bind_some, hv]
        rw [List.getElem?_eq_getElem (by rw [hlen]; exact hrow)]
        rfl

/-- the first selector handed out lies above every selector in use -/
theorem lt_firstSelector (gs lts : List Nat) (g : Nat) (hg : g ∈ gs ∨ g ∈ lts) :
    g < firstSelector gs lts := by
  have key : ∀ (l : List Nat) (a : Nat), a ≤ l.foldl max a ∧ ∀ x ∈ l, x ≤ l.foldl max a := by
    intro l
    induction l with
    | nil => intro a; simp
    | cons b l ih =>
      intro a
      obtain ⟨h1, h2⟩ := ih (max a b)
      refine ⟨by simp only [List.foldl_cons]; omega, ?_⟩
      intro x hx
      rcases List.mem_cons.1 hx with rfl | hx
      · simp only [List.foldl_cons]; omega
      · exact h2 x hx
  unfold firstSelector
  rcases hg with hg | hg
  · have := (key gs 0).2 g hg
    have := (key lts (gs.foldl max 0)).1
    omega
  · have := (key lts (gs.foldl max 0)).2 g hg
    omega

/-- C30. The selector columns of the gates and of the lookup gates are left as they were, and no
table's tag is one of them. -/
theorem C30_used_selectors (ids : String → Option Nat) (numIds : Nat)
    (tables : List (LookupTableDef F)) (gs lts : List Nat) (t : PlonkTable F) (constIds : List Nat)
    (usable : Nat) (h : PackInput ids numIds tables (firstSelector gs lts) t constIds) :
    ∃ lookups t' usable', packLookupTables ids numIds tables gs lts t constIds usable =
        some (lookups, t', usable') ∧
      ∀ g, g ∈ gs ∨ g ∈ lts → t'.selectors[g]? = t.selectors[g]? ∧
        ∀ d ∈ tables, ∀ sd ∈ d.subtables, ∃ id lt,
          ids (d.name ++ "/" ++ sd.name) = some id ∧ lookups[id - 1]? = some lt ∧
          lt.tagIndex ≠ g := by
  obtain ⟨lookups, t', usable', h1, -, -, -, -, -, h2, -, h3⟩ :=
    C30_pack ids numIds tables gs lts t constIds usable h
  refine ⟨lookups, t', usable', h1, fun g hg => ⟨h2 g (lt_firstSelector gs lts g hg), ?_⟩⟩
  intro d hd sd hsd
  have hpl : ∀ (l : List (LookupTableDef F)) (s : Nat), d ∈ l → ∃ s', (s', d) ∈ placements s l := by
    intro l
    induction l with
    | nil => intro s hd; simp at hd
    | cons a l ih =>
      intro s hd
      rcases List.mem_cons.1 hd with rfl | hd
      · exact ⟨s, by simp [placements]⟩
      · obtain ⟨s', hs'⟩ := ih (s + a.rowsNumber) hd
        exact ⟨s', by simp [placements, hs']⟩
  obtain ⟨st, hst⟩ := hpl tables 1 hd
  obtain ⟨id, lt, a1, a2, -, -, a3, -⟩ := h3 st d hst sd hsd
  exact ⟨id, lt, a1, a2, by have := lt_firstSelector gs lts g hg; omega⟩

/-- C30. The blocks of two different tables do not overlap. -/
theorem C30_blocks_disjoint (tables : List (LookupTableDef F)) (start : Nat) :
    (placements start tables).Pairwise fun a b => a.1 + a.2.rowsNumber ≤ b.1 := by
  induction tables generalizing start with
  | nil => simp [placements]
  | cons d ds ih =>
    rw [placements, List.pairwise_cons]
    refine ⟨?_, ih _⟩
    rintro ⟨st, d'⟩ h
    exact (placements_mem_start h).1

/-- every table given is placed. -/
theorem C30_all_placed (tables : List (LookupTableDef F)) (d : LookupTableDef F) (h : d ∈ tables) :
    ∃ start, 1 ≤ start ∧ (start, d) ∈ placements 1 tables :=
  let ⟨st, hst⟩ := placements_mem h 1
  ⟨st, (placements_mem_start hst).1, hst⟩

/-! ### an instance -/

/-- two tables, the first with two subtables. -/
def exTables : List (LookupTableDef ℚ) :=
  [⟨"a", [[1, 2, 3], [10, 20, 30]], 3, 2, [⟨"all", [0, 1], 0, 2⟩, ⟨"tail", [1], 1, 2⟩]⟩,
   ⟨"b", [[7, 8]], 2, 1, [⟨"full", [0], 0, 1⟩]⟩]

def exIds : String → Option Nat
  | "a/all" => some 2
  | "a/tail" => some 1
  | "b/full" => some 3
  | _ => none

def exAssignment : PlonkTable ℚ := ⟨[[5]], [], [[], [9], []], [[1], [], [], []]⟩

example : PackInput exIds 3 exTables (firstSelector [0] []) exAssignment [2, 0] := by
  constructor <;> decide +kernel

example : (packLookupTables exIds 3 exTables [0] [] exAssignment [2, 0] 2).map
    (fun r => (r.2.2, r.2.1.constants, r.2.1.selectors)) =
    some (6, [[0, 10, 20, 30], [9], [0, 1, 2, 3, 7, 8]],
      [[1], [0, 1, 1, 1], [0, 0, 1, 1], [0, 0, 0, 0, 1, 1]]) := by decide +kernel

/-! ### `pack_lookup_tables_horizontal` -/

/-! ## C63 -/


/-- number of options a table above the limit is spread over (the model's and the code's formula,
lookup_table_definition.hpp:221, 238). -/
def bigOptions (rows maxRows : Nat) : Nat :=
  if rows % maxRows = 0 then rows / maxRows else rows / maxRows + 1

/-- C63, tables above the limit, what is offered: row `q` of a column is found in option
`q / (max - 1)`, so it is offered when that option exists, i.e. when `q < options * (max - 1)`. The
full property (all rows offered) is refuted below: the number of options is computed as if an option
held `max` rows. -/
theorem C63_big_table_partial (col : List F) (rows maxRows q : Nat) (hmax : 1 < maxRows)
    (hq : q < rows) (hcol : col.length = rows) (hopt : q < bigOptions rows maxRows * (maxRows - 1)) :
    ∃ i r, i < bigOptions rows maxRows ∧ 0 < r ∧ r < maxRows ∧
      (bigColumn col rows maxRows i)[r]? = col[q]? := by
  refine ⟨q / (maxRows - 1), 1 + q % (maxRows - 1), Nat.div_lt_of_lt_mul (by rwa [Nat.mul_comm] at hopt),
    by omega, ?_, ?_⟩
  · have := Nat.mod_lt q (show 0 < maxRows - 1 by omega); omega
  · unfold bigColumn
    have hlt := Nat.mod_lt q (show 0 < maxRows - 1 by omega)
    rw [Nat.add_comm, List.getElem?_cons_succ, List.getElem?_map, List.getElem?_range hlt]
    have he : q / (maxRows - 1) * (maxRows - 1) + q % (maxRows - 1) = q := by
      rw [Nat.mul_comm]; exact Nat.div_add_mod q (maxRows - 1)
    simp [he, hq, hcol]

/-- C63, tables above the limit, nothing foreign is offered: every cell from row 1 on is a cell of
the table. -/
theorem C63_big_table_nothing_foreign (col : List F) (rows maxRows i r : Nat) (hrows : 0 < rows)
    (hcol : col.length = rows) (hr0 : 0 < r) (hr : r < maxRows) :
    ∃ q < rows, (bigColumn col rows maxRows i)[r]? = col[q]? := by
  obtain ⟨r, rfl⟩ : ∃ r', r = r' + 1 := ⟨r - 1, by omega⟩
  unfold bigColumn
  rw [List.getElem?_cons_succ, List.getElem?_map, List.getElem?_range (by omega)]
  simp only [Option.map_some]
  by_cases h : i * (maxRows - 1) + r < rows
  · exact ⟨_, h, by simp [h, hcol]⟩
  · refine ⟨rows - 1, by omega, ?_⟩
    rw [if_neg h, List.getElem?_eq_getElem (by omega), List.getD_eq_getElem?_getD,
      List.getElem?_eq_getElem (by omega)]
    rfl

example : ¬ (7 ≤ bigOptions 7 4 * (4 - 1)) ∧ 5 ≤ bigOptions 5 4 * (4 - 1) := by decide


/-- C63 is false: a table with five rows and a limit of four usable rows is
spread over two options of three rows each -- but a table with seven rows gets two options as well,
so its seventh row is lost. -/
theorem C63_loses_rows :
    let d : LookupTableDef ℚ := ⟨"a", [[1, 2, 3, 4, 5, 6, 7]], 7, 1, [⟨"all", [0], 0, 6⟩]⟩
    ∃ lt t' u, packLookupTablesHorizontal (fun _ => some 1) 1 [d] ⟨[], [], [[], []], [[], []]⟩ [0, 1] 1 1 4 =
        some ([lt], t', u) ∧
      some [7] ∈ declared d ⟨"all", [0], 0, 6⟩ ∧ some [7] ∉ offered t' lt := by
  refine ⟨_, _, _, rfl, ?_, ?_⟩ <;> decide +kernel

/-- C63 is false: when a second subtable of a table has the same row range as
an earlier one, its option points at the columns of the first table instead of its own. -/
theorem C63_wrong_column :
    let a : LookupTableDef ℚ := ⟨"a", [[1, 2]], 2, 1, [⟨"x", [0], 0, 1⟩]⟩
    let b : LookupTableDef ℚ := ⟨"b", [[5, 6, 7]], 3, 1, [⟨"x", [0], 0, 2⟩, ⟨"y", [0], 0, 2⟩]⟩
    let ids : String → Option Nat := fun s =>
      if s = "a/x" then some 1 else if s = "b/x" then some 2 else if s = "b/y" then some 3 else none
    ∃ l1 l2 l3 t' u, packLookupTablesHorizontal ids 3 [a, b] ⟨[], [], [[], []], [[], [], []]⟩ [0, 1] 1 1 5 =
        some ([l1, l2, l3], t', u) ∧
      offered t' l2 = declared b ⟨"x", [0], 0, 2⟩ ∧ offered t' l3 ≠ declared b ⟨"y", [0], 0, 2⟩ := by
  refine ⟨_, _, _, _, _, rfl, ?_, ?_⟩ <;> decide +kernel

/-- C63 is false: a table with exactly as many rows as the limit takes no branch of the case
distinction, so the columns it uses are not reserved, and the next table overwrites them. -/
theorem C63_full_table_overwritten :
    let a : LookupTableDef ℚ := ⟨"a", [[1, 2, 3]], 3, 1, [⟨"x", [0], 0, 2⟩]⟩
    let b : LookupTableDef ℚ := ⟨"b", [[5, 6, 7, 8]], 4, 1, [⟨"x", [0], 0, 3⟩]⟩
    let ids : String → Option Nat := fun s =>
      if s = "a/x" then some 1 else if s = "b/x" then some 2 else none
    ∃ l1 l2 t' u, packLookupTablesHorizontal ids 2 [a, b] ⟨[], [], [[], []], [[], [], []]⟩ [0, 1] 1 1 3 =
        some ([l1, l2], t', u) ∧ offered t' l2 = declared b ⟨"x", [0], 0, 3⟩ ∧
      some [1] ∈ declared a ⟨"x", [0], 0, 2⟩ ∧ some [1] ∉ offered t' l1 := by
  refine ⟨_, _, _, _, rfl, ?_, ?_, ?_⟩ <;> decide +kernel

theorem foldlM_none_of_mem {α β : Type} (f : β → α → Option β) (a : α) (ha : ∀ b, f b a = none) :
    ∀ (l : List α), a ∈ l → ∀ b, l.foldlM f b = none := by
  intro l
  induction l with
  | nil => simp
  | cons x l ih =>
    intro hm b
    rw [List.foldlM_cons]
    rcases List.mem_cons.1 hm with rfl | hm
    · rw [ha]; rfl
    · cases f b x with
      | none => rfl
      | some b' => exact ih hm b'

/-- C63, tables above the limit: a subtable that does not span all rows of such a table is refused,
whatever else is packed. -/
theorem C63_big_table_subtable_refused (ids : String → Option Nat) (numIds : Nat)
    (tables : List (LookupTableDef F)) (t : PlonkTable F) (constIds : List Nat)
    (curSel usable maxRows : Nat) (d : LookupTableDef F) (hd : d ∈ tables)
    (hbig : maxRows < d.rowsNumber) (sd : SubtableDef) (hsd : sd ∈ d.subtables)
    (hspan : sd.first ≠ 0 ∨ sd.last ≠ d.rowsNumber - 1) :
    packLookupTablesHorizontal ids numIds tables t constIds curSel usable maxRows = none := by
  have h1 : ∀ s, hPackTable ids constIds maxRows s d = none := by
    intro s
    unfold hPackTable
    rw [if_pos hbig]
    unfold hPackBig
    simp only [Option.bind_eq_bind]
    have hfold : ∀ (n st fs : Nat) (bp : List LookupTable),
        d.subtables.foldlM (fun bp (st' : SubtableDef) =>
          if st'.first ≠ 0 ∨ st'.last ≠ d.rowsNumber - 1 then none else
          ((List.range n).mapM fun i =>
            lookupOption constIds (st + i * d.columnsNumber) st'.columns).bind fun opts =>
          declare ids bp (d.name ++ "/" ++ st'.name) ⟨st'.columns.length, fs, opts⟩) bp = none :=
      fun n st fs bp => foldlM_none_of_mem _ sd (fun b => by rw [if_pos hspan]) _ hsd bp
    simp only [hfold, Option.bind_none]
    split_ifs <;> simp
  unfold packLookupTablesHorizontal
  simp only [foldlM_none_of_mem _ d h1 tables hd, Option.bind_eq_bind, Option.bind_none]

example : packLookupTablesHorizontal (F := ℚ) (fun _ => some 1) 1
    [⟨"a", [[1, 2, 3, 4, 5]], 5, 1, [⟨"tail", [0], 1, 4⟩]⟩] ⟨[], [], [[], []], [[], []]⟩ [0, 1] 1 1 4
      = none :=
  C63_big_table_subtable_refused _ _ _ _ _ _ _ _ _ (List.mem_singleton.2 rfl) (by decide)
    _ (List.mem_singleton.2 rfl) (by decide)

end Crypto3Zk
