import Verif.Spec.LookupPack
import Verif.Lemmas.LookupTables

/-!
# Lemmas for C63: tables below the limit
-/

namespace Crypto3Zk

set_option linter.unusedSectionVars false

variable {F : Type}

/-- what is known about the state after some tables and subtables have been placed. -/
structure HPackInv [Zero F] [One F] (ids : String → Option Nat) (numIds : Nat) (constIds : List Nat)
    (sels0 : List (List F)) (sel0 usable0 maxRows : Nat) (col width : Nat)
    (tabs : List (Nat × Nat × LookupTableDef F)) (subs : List ((Nat × Nat × LookupTableDef F) × SubtableDef))
    (s : PackState F) : Prop where
  colsLen : s.constCols.length = constIds.length
  colsLe : ∀ c ∈ s.constCols, c.length ≤ s.usableAfter
  usableLe : usable0 ≤ s.usableAfter
  usableMax : s.usableAfter ≤ max usable0 maxRows
  bpLen : s.bpTables.length = numIds
  selsLen : s.selectors.length = sels0.length
  cur : s.curSel = sel0 + subs.length
  later : ∀ j, s.curSel ≤ j → s.selectors[j]? = sels0[j]?
  earlier : ∀ j, j < sel0 → s.selectors[j]? = sels0[j]?
  tabsRect : ∀ st b d, (st, b, d) ∈ tabs → ∀ c ∈ d.table, c.length = d.rowsNumber
  tabsPlace : ∀ st b d, (st, b, d) ∈ tabs →
    b + d.table.length ≤ col ∨ b = col ∧ d.table.length ≤ width ∧ st + d.rowsNumber ≤ s.startRow
  tabsOk : ∀ (st b : Nat) (d : LookupTableDef F), (st, b, d) ∈ tabs →
    ∀ (c : Nat) (cl : List F), d.table[c]? = some cl → ∃ cc, s.constCols[b + c]? = some cc ∧
      ∀ (r : Nat) (v : F), cl[r]? = some v → cc[st + r]? = some v
  subsOk : ∀ st b d sd, ((st, b, d), sd) ∈ subs → ∃ id tag opt len selc,
    ids (d.name ++ "/" ++ sd.name) = some id ∧ 0 < id ∧
    s.bpTables[id - 1]? = some ⟨sd.columns.length, tag, [opt]⟩ ∧
    lookupOption constIds b sd.columns = some opt ∧
    sel0 ≤ tag ∧ tag < s.curSel ∧ len ≤ s.usableAfter ∧
    selectorColumn len st sd.first sd.last = some selc ∧ s.selectors[tag]? = some selc

section
variable [Zero F] [One F] {ids : String → Option Nat} {numIds : Nat} {constIds : List Nat}
  {sels0 : List (List F)} {sel0 usable0 maxRows : Nat}

theorem placeColumn_base (b : Nat) (s : PackState F) (col : List F) (i : Nat) :
    placeColumn b s (col, i) = placeColumn 0 s (col, b + i) := by
  simp only [placeColumn, Nat.zero_add]

theorem placeColumn_usable (s s' : PackState F) (col : List F) (i : Nat)
    (h : placeColumn 0 s (col, i) = some s') : s'.usableAfter ≤ max s.usableAfter (s.startRow + col.length) := by
  unfold placeColumn at h
  simp only [Option.bind_eq_bind, Option.bind_eq_some_iff, Option.pure_def, Option.some.injEq] at h
  obtain ⟨c, -, rfl⟩ := h
  split_ifs <;> simp <;> omega

/-- placing all columns of a table, from column `k` on. -/
theorem hPlaceColumns_spec (d : LookupTableDef F) (col width : Nat)
    (tabs : List (Nat × Nat × LookupTableDef F))
    (subs : List ((Nat × Nat × LookupTableDef F) × SubtableDef)) :
    ∀ (cols : List (List F)) (k : Nat) (s : PackState F),
    HPackInv ids numIds constIds sels0 sel0 usable0 maxRows col width tabs subs s →
    (∀ (j : Nat) (cl : List F), cols[j]? = some cl → d.table[k + j]? = some cl) →
    col + k + cols.length ≤ constIds.length →
    (∀ cl ∈ cols, s.startRow + cl.length ≤ maxRows) →
    (∀ (c : Nat) (cl : List F), c < k → d.table[c]? = some cl → ∃ cc, s.constCols[col + c]? = some cc ∧
      ∀ (r : Nat) (v : F), cl[r]? = some v → cc[s.startRow + r]? = some v) →
    ∃ s', (cols.zipIdx k).foldlM (placeColumn col) s = some s' ∧
      HPackInv ids numIds constIds sels0 sel0 usable0 maxRows col width tabs subs s' ∧
      s'.startRow = s.startRow ∧
      (∀ (c : Nat) (cl : List F), c < k + cols.length → d.table[c]? = some cl →
        ∃ cc, s'.constCols[col + c]? = some cc ∧
        ∀ (r : Nat) (v : F), cl[r]? = some v → cc[s.startRow + r]? = some v) ∧
      (∀ cl ∈ cols, s.startRow + cl.length ≤ s'.usableAfter) ∧ s.usableAfter ≤ s'.usableAfter := by
  intro cols
  induction cols with
  | nil =>
    intro k s hinv hd hk _ hdone
    exact ⟨s, by simp, hinv, rfl, by simpa using hdone, by simp, le_rfl⟩
  | cons cl cols ih =>
    intro k s hinv hd hk hmax hdone
    have hk' : col + k < s.constCols.length := by rw [hinv.colsLen]; simp at hk; omega
    obtain ⟨s1, e1, h1, h2, h3, h4, h5, h6, h7, h8, h9⟩ := placeColumn_spec s cl (col + k) hk'
    have hus := placeColumn_usable s s1 cl (col + k) e1
    have h7' := h7 hinv.colsLe
    have hmax0 := hmax cl (by simp)
    have hinv1 : HPackInv ids numIds constIds sels0 sel0 usable0 maxRows col width tabs subs s1 := by
      refine ⟨by rw [h5, hinv.colsLen], h7'.1, hinv.usableLe.trans h6, ?_, by rw [h2, hinv.bpLen],
        by rw [h1, hinv.selsLen], by rw [h3, hinv.cur], by rw [h3, h1]; exact hinv.later,
        by rw [h1]; exact hinv.earlier, hinv.tabsRect, by rw [h4]; exact hinv.tabsPlace, ?_, ?_⟩
      · have := hinv.usableMax
        omega
      · intro st b d' hm c col' hc
        obtain ⟨cc, hcc, hval⟩ := hinv.tabsOk st b d' hm c col' hc
        obtain ⟨cc', hcc', hkeep, hsame⟩ := h9 (b + c) cc hcc
        refine ⟨cc', hcc', fun r v hv => ?_⟩
        have hold := hval r v hv
        have hclt : c < d'.table.length := (List.getElem?_eq_some_iff.1 hc).1
        rcases hinv.tabsPlace st b d' hm with hp | ⟨-, -, hp⟩
        · rw [hsame (by omega)]; exact hold
        · have hr : r < col'.length := (List.getElem?_eq_some_iff.1 hv).1
          have hlen := hinv.tabsRect st b d' hm col' (List.mem_of_getElem? hc)
          rw [hkeep _ (by omega) (List.getElem?_eq_some_iff.1 hold).1]
          exact hold
      · intro st b d' sd hm
        obtain ⟨id, tag, opt, len, selc, b1, b2, b3, b4, b5, b6, b7, b8, b9⟩ := hinv.subsOk st b d' sd hm
        exact ⟨id, tag, opt, len, selc, b1, b2, by rw [h2]; exact b3, b4, b5, by rw [h3]; exact b6,
          b7.trans h6, b8, by rw [h1]; exact b9⟩
    obtain ⟨s2, e2, hinv2, g1, g2, g3, g4⟩ := ih (k + 1) s1 hinv1
      (fun j col' hj => by have := hd (j + 1) col' (by simpa using hj); rw [← this]; congr 1; omega)
      (by simp at hk; omega)
      (by rw [h4]; exact fun c hc => hmax c (by simp [hc]))
      (by
        intro c col' hc hcol
        rw [h4]
        rcases Nat.lt_or_eq_of_le (Nat.lt_succ_iff.1 hc) with hlt | rfl
        · obtain ⟨cc, hcc, hval⟩ := hdone c col' hlt hcol
          obtain ⟨cc', hcc', -, hsame⟩ := h9 (col + c) cc hcc
          rw [hsame (by omega)] at hcc'
          exact ⟨cc, hcc', hval⟩
        · have := hd 0 cl (by simp)
          rw [Nat.add_zero, hcol] at this
          obtain rfl : col' = cl := by simpa using this
          exact h8)
    refine ⟨s2, ?_, hinv2, by rw [g1, h4], ?_, ?_, h6.trans g4⟩
    · rw [List.zipIdx_cons, List.foldlM_cons, placeColumn_base, e1]; exact e2
    · intro c col' hc hcol
      rw [← h4]
      exact g2 c col' (by simp at hc; omega) hcol
    · intro col' hm
      rcases List.mem_cons.1 hm with rfl | hm
      · exact h7'.2.trans g4
      · have := g3 col' hm; rw [h4] at this; exact this

/-- packing the subtables of one table, none of which has the rows of another. -/
theorem hPackSubtables_spec (d : LookupTableDef F) (col width : Nat)
    (tabs : List (Nat × Nat × LookupTableDef F)) :
    ∀ (sts : List SubtableDef) (subs : List ((Nat × Nat × LookupTableDef F) × SubtableDef))
      (s : PackState F) (m : List ((Nat × Nat) × Nat)),
    HPackInv ids numIds constIds sels0 sel0 usable0 maxRows col width tabs subs s →
    (∀ sd ∈ sts, ∀ c ∈ sd.columns, col + c < constIds.length) →
    (∀ sd ∈ sts, s.startRow + sd.last < s.usableAfter) →
    (∀ sd ∈ sts, ∃ i, ids (d.name ++ "/" ++ sd.name) = some i ∧ 0 < i ∧ i ≤ numIds) →
    ((subs.map fun x => ids (x.1.2.2.name ++ "/" ++ x.2.name)) ++
      sts.map fun sd => ids (d.name ++ "/" ++ sd.name)).Nodup →
    (∀ j, j < subs.length + sts.length → sels0[sel0 + j]? = some []) →
    (m.map Prod.fst ++ sts.map fun sd => (sd.first, sd.last)).Nodup →
    ∃ s' m', sts.foldlM (hPackSubtable ids constIds col d.name) (s, m) = some (s', m') ∧
      HPackInv ids numIds constIds sels0 sel0 usable0 maxRows col width tabs
        (subs ++ sts.map fun sd => ((s.startRow, col, d), sd)) s' ∧
      s'.startRow = s.startRow ∧ s'.constCols = s.constCols ∧ s'.usableAfter = s.usableAfter := by
  intro sts
  induction sts with
  | nil =>
    intro subs s m hinv _ _ _ _ _ _
    exact ⟨s, m, rfl, by simpa using hinv, rfl, rfl, rfl⟩
  | cons sd sts ih =>
    intro subs s m hinv hcol hrow hid hnd hsel hm
    obtain ⟨opt, hopt⟩ := lookupOption_some (constIds := constIds) col sd.columns
      (fun c hc => hcol sd (by simp) c hc)
    obtain ⟨id, hidv, hid0, hidn⟩ := hid sd (by simp)
    have hselc : ∃ selc : List F, selectorColumn s.usableAfter s.startRow sd.first sd.last = some selc := by
      unfold selectorColumn
      rw [if_neg]
      · exact ⟨_, rfl⟩
      · have := hrow sd (by simp); omega
    obtain ⟨selc, hselc⟩ := hselc
    have hfree : s.selectors[s.curSel]? = some [] := by
      rw [hinv.later _ le_rfl, hinv.cur]
      exact hsel _ (by simp)
    have hcurlt : s.curSel < s.selectors.length := (List.getElem?_eq_some_iff.1 hfree).1
    have hfind : (m.find? fun e => e.1 = (sd.first, sd.last)) = none := by
      rw [List.find?_eq_none]
      intro e he
      simp only [decide_eq_true_eq]
      intro hee
      rw [List.nodup_append] at hm
      exact hm.2.2 _ (List.mem_map.2 ⟨e, he, rfl⟩) _ (List.mem_map.2 ⟨sd, by simp, rfl⟩) hee
    set s1 : PackState F := { s with
      bpTables := s.bpTables.set (id - 1) ⟨sd.columns.length, s.curSel, [opt]⟩,
      selectors := s.selectors.set s.curSel selc, curSel := s.curSel + 1 } with hs1
    have e1 : hPackSubtable ids constIds col d.name (s, m) sd =
        some (s1, m ++ [((sd.first, sd.last), s.curSel)]) := by
      unfold hPackSubtable
      have h2 : declare ids s.bpTables (d.name ++ "/" ++ sd.name) ⟨sd.columns.length, s.curSel, [opt]⟩ =
          some (s.bpTables.set (id - 1) ⟨sd.columns.length, s.curSel, [opt]⟩) := by
        unfold declare
        rw [hidv]
        simp only [Option.bind_eq_bind, Option.bind_some]
        rw [if_neg (by omega), if_pos (by rw [hinv.bpLen]; omega)]
      have h3 : fillColumn s.selectors s.curSel selc = some (s.selectors.set s.curSel selc) := by
        unfold fillColumn
        rw [hfree]; simp
      simp only [hfind]
      rw [hselc, hopt, Option.bind_eq_bind, Option.bind_some, Option.bind_eq_bind, Option.bind_some,
        h2, Option.bind_eq_bind, Option.bind_some, h3]
      rfl
    have hinv1 : HPackInv ids numIds constIds sels0 sel0 usable0 maxRows col width tabs
        (subs ++ [((s.startRow, col, d), sd)]) s1 := by
      refine ⟨hinv.colsLen, hinv.colsLe, hinv.usableLe, hinv.usableMax, by simp [hs1, hinv.bpLen],
        by simp [hs1, hinv.selsLen], by simp [hs1, hinv.cur]; omega, ?_, ?_, hinv.tabsRect,
        hinv.tabsPlace, hinv.tabsOk, ?_⟩
      · intro j hj
        simp only [hs1] at hj ⊢
        rw [List.getElem?_set_ne (by omega)]
        exact hinv.later j (by omega)
      · intro j hj
        simp only [hs1]
        have := hinv.cur
        rw [List.getElem?_set_ne (by omega)]
        exact hinv.earlier j hj
      · intro st b d' sd' hm
        rcases List.mem_append.1 hm with hm | hm
        · obtain ⟨id', tag, opt', len, selc', b1, b2, b3, b4, b5, b6, b7, b8, b9⟩ :=
            hinv.subsOk st b d' sd' hm
          have hne : id' ≠ id := by
            rintro rfl
            rw [List.nodup_append] at hnd
            exact hnd.2.2 _ (List.mem_map.2 ⟨_, hm, rfl⟩) _ (List.mem_map.2 ⟨sd, by simp, rfl⟩)
              (b1.trans hidv.symm)
          refine ⟨id', tag, opt', len, selc', b1, b2, ?_, b4, b5, ?_, b7, b8, ?_⟩
          · simp only [hs1]
            rw [List.getElem?_set_ne (by omega)]; exact b3
          · simp only [hs1]; omega
          · simp only [hs1]
            rw [List.getElem?_set_ne (by omega)]; exact b9
        · simp only [List.mem_singleton, Prod.mk.injEq] at hm
          obtain ⟨⟨rfl, rfl, rfl⟩, rfl⟩ := hm
          refine ⟨id, s.curSel, opt, s.usableAfter, selc, hidv, hid0, ?_, hopt, ?_, ?_, le_rfl, hselc, ?_⟩
          · simp only [hs1]
            rw [List.getElem?_set_self (by rw [hinv.bpLen]; omega)]
          · rw [hinv.cur]; omega
          · simp [hs1]
          · simp only [hs1]
            rw [List.getElem?_set_self hcurlt]
    obtain ⟨s2, m2, e2, hinv2, g1, g2, g3⟩ := ih (subs ++ [((s.startRow, col, d), sd)]) s1
      (m ++ [((sd.first, sd.last), s.curSel)]) hinv1
      (fun x hx => hcol x (by simp [hx])) (fun x hx => hrow x (by simp [hx]))
      (fun x hx => hid x (by simp [hx]))
      (by simpa using hnd)
      (fun j hj => hsel j (by simp at hj ⊢; omega))
      (by simpa using hm)
    refine ⟨s2, m2, ?_, ?_, g1, g2, g3⟩
    · rw [List.foldlM_cons, e1]; exact e2
    · simpa using hinv2

/-- the subtables of a list of placed tables. -/
def hSubsOf (l : List (Nat × Nat × LookupTableDef F)) :
    List ((Nat × Nat × LookupTableDef F) × SubtableDef) :=
  l.flatMap fun x => x.2.2.subtables.map fun sd => (x, sd)

theorem hPackTables_spec :
    ∀ (ds : List (LookupTableDef F)) (tabs : List (Nat × Nat × LookupTableDef F)) (s : HPackState F),
    HPackInv ids numIds constIds sels0 sel0 usable0 maxRows s.startCol s.prevCols tabs (hSubsOf tabs) s.core →
    (∀ d ∈ ds, ∀ col ∈ d.table, col.length = d.rowsNumber) →
    (∀ d ∈ ds, d.table ≠ []) →
    (∀ d ∈ ds, d.columnsNumber = d.table.length) →
    (∀ d ∈ ds, d.rowsNumber < maxRows) →
    (∀ d ∈ ds, (d.subtables.map fun s => (s.first, s.last)).Nodup) →
    (∀ row col d, (row, col, d) ∈ hPlacements maxRows s.core.startRow s.startCol s.prevCols ds →
      col + d.table.length ≤ constIds.length) →
    (∀ d ∈ ds, ∀ sd ∈ d.subtables, ∀ c ∈ sd.columns, c < d.table.length) →
    (∀ d ∈ ds, ∀ sd ∈ d.subtables, sd.last < d.rowsNumber) →
    (∀ d ∈ ds, ∀ sd ∈ d.subtables, ∃ i, ids (d.name ++ "/" ++ sd.name) = some i ∧ 0 < i ∧ i ≤ numIds) →
    ((hSubsOf tabs).map (fun x => ids (x.1.2.2.name ++ "/" ++ x.2.name)) ++
      ds.flatMap fun d => d.subtables.map fun sd => ids (d.name ++ "/" ++ sd.name)).Nodup →
    (∀ j, j < (hSubsOf tabs).length + (ds.flatMap (·.subtables)).length → sels0[sel0 + j]? = some []) →
    ∃ s', ds.foldlM (hPackTable ids constIds maxRows) s = some s' ∧
      HPackInv ids numIds constIds sels0 sel0 usable0 maxRows s'.startCol s'.prevCols
        (tabs ++ hPlacements maxRows s.core.startRow s.startCol s.prevCols ds)
        (hSubsOf (tabs ++ hPlacements maxRows s.core.startRow s.startCol s.prevCols ds)) s'.core := by
  intro ds
  induction ds with
  | nil =>
    intro tabs s hinv _ _ _ _ _ _ _ _ _ _ _
    exact ⟨s, rfl, by simpa [hPlacements] using hinv⟩
  | cons d ds ih =>
    intro tabs s hinv hr hne hw hb hrg hroom hc hl hid hnd hsel
    -- the position of the table
    obtain ⟨row, col, width, hpl, hpk, hstart, hfits, hinv0⟩ : ∃ row col width,
        hPlacements maxRows s.core.startRow s.startCol s.prevCols (d :: ds) =
          (row, col, d) :: hPlacements maxRows (row + d.rowsNumber) col width ds ∧
        (hPackTable ids constIds maxRows s d = do
          let core ← d.table.zipIdx.foldlM (placeColumn col) { s.core with startRow := row }
          let (core, _) ← d.subtables.foldlM (hPackSubtable ids constIds col d.name) (core, [])
          return ⟨{ core with startRow := core.startRow + d.rowsNumber }, col, width, s.fullSel⟩) ∧
        d.table.length ≤ width ∧ row + d.rowsNumber ≤ maxRows ∧
        HPackInv ids numIds constIds sels0 sel0 usable0 maxRows col width tabs (hSubsOf tabs)
          { s.core with startRow := row } := by
      have hbd := hb d (by simp)
      have hwd := hw d (by simp)
      by_cases hcase : s.core.startRow + d.rowsNumber < maxRows
      · refine ⟨s.core.startRow, s.startCol, max s.prevCols d.columnsNumber, ?_, ?_, by omega, by omega, ?_⟩
        · rw [hPlacements, if_pos hcase]
        · have hmx : (if s.prevCols < d.columnsNumber then d.columnsNumber else s.prevCols) =
              max s.prevCols d.columnsNumber := by split_ifs <;> omega
          unfold hPackTable
          rw [if_neg (by omega)]
          simp only [if_pos hcase, hmx]
        · refine ⟨hinv.colsLen, hinv.colsLe, hinv.usableLe, hinv.usableMax, hinv.bpLen, hinv.selsLen,
            hinv.cur, hinv.later, hinv.earlier, hinv.tabsRect, ?_, hinv.tabsOk, hinv.subsOk⟩
          intro st b d' hm
          rcases hinv.tabsPlace st b d' hm with h | ⟨h1, h2, h3⟩
          · exact Or.inl h
          · exact Or.inr ⟨h1, by omega, h3⟩
      · refine ⟨1, s.startCol + s.prevCols, d.columnsNumber, ?_, ?_, by omega, by omega, ?_⟩
        · rw [hPlacements, if_neg hcase]
        · unfold hPackTable
          rw [if_neg (by omega)]
          simp only [if_neg hcase, if_pos hbd]
        · refine ⟨hinv.colsLen, hinv.colsLe, hinv.usableLe, hinv.usableMax, hinv.bpLen, hinv.selsLen,
            hinv.cur, hinv.later, hinv.earlier, hinv.tabsRect, ?_, hinv.tabsOk, hinv.subsOk⟩
          intro st b d' hm
          rcases hinv.tabsPlace st b d' hm with h | ⟨h1, h2, h3⟩
          · exact Or.inl (by omega)
          · exact Or.inl (by omega)
    rw [hpl] at hroom
    have hroom0 := hroom row col d (by simp)
    have hrd := hr d (by simp)
    obtain ⟨s1, e1, hinv1, g1, g2, g3, g4⟩ := hPlaceColumns_spec d col width tabs (hSubsOf tabs) d.table 0 _
      hinv0 (fun j cl hj => by simpa using hj) (by simpa using hroom0)
      (fun cl hcl => by rw [hrd cl hcl]; exact hfits) (by simp)
    have hnd' : ((hSubsOf tabs).map (fun x => ids (x.1.2.2.name ++ "/" ++ x.2.name)) ++
        d.subtables.map fun sd => ids (d.name ++ "/" ++ sd.name)).Nodup := by
      rw [List.flatMap_cons, ← List.append_assoc] at hnd
      exact (List.nodup_append.1 hnd).1
    simp only at g1 g2 g3 g4
    obtain ⟨s2, m2, e2, hinv2, k1, k2, k3⟩ := hPackSubtables_spec d col width tabs d.subtables (hSubsOf tabs)
      s1 [] hinv1
      (fun sd hsd c hcc => by have := hc d (by simp) sd hsd c hcc; omega)
      (by
        intro sd hsd
        have h1 := hl d (by simp) sd hsd
        obtain ⟨cl, hcl⟩ := List.exists_mem_of_ne_nil _ (hne d (by simp))
        have := g3 cl hcl
        have := hrd cl hcl
        rw [g1]; omega)
      (hid d (by simp)) hnd'
      (fun j hj => hsel j (by simp only [List.flatMap_cons, List.length_append] ; omega))
      (by simpa using hrg d (by simp))
    set s3 : HPackState F := ⟨{ s2 with startRow := s2.startRow + d.rowsNumber }, col, width, s.fullSel⟩
      with hs3
    have hsubs : hSubsOf (tabs ++ [(row, col, d)]) =
        hSubsOf tabs ++ d.subtables.map fun sd => ((s1.startRow, col, d), sd) := by
      simp [hSubsOf, g1]
    have hinv3 : HPackInv ids numIds constIds sels0 sel0 usable0 maxRows s3.startCol s3.prevCols
        (tabs ++ [(row, col, d)]) (hSubsOf (tabs ++ [(row, col, d)])) s3.core := by
      rw [hsubs]
      refine ⟨hinv2.colsLen, hinv2.colsLe, hinv2.usableLe, hinv2.usableMax, hinv2.bpLen, hinv2.selsLen,
        hinv2.cur, hinv2.later, hinv2.earlier, ?_, ?_, ?_, hinv2.subsOk⟩
      · intro st b d' hm
        rcases List.mem_append.1 hm with hm | hm
        · exact hinv2.tabsRect st b d' hm
        · simp only [List.mem_singleton, Prod.mk.injEq] at hm
          obtain ⟨rfl, rfl, rfl⟩ := hm
          exact hrd
      · intro st b d' hm
        simp only [hs3]
        rcases List.mem_append.1 hm with hm | hm
        · rcases hinv2.tabsPlace st b d' hm with h | ⟨h1, h2, h3⟩
          · exact Or.inl h
          · exact Or.inr ⟨h1, h2, by omega⟩
        · simp only [List.mem_singleton, Prod.mk.injEq] at hm
          obtain ⟨rfl, rfl, rfl⟩ := hm
          exact Or.inr ⟨rfl, hstart, by rw [k1, g1]⟩
      · intro st b d' hm
        rcases List.mem_append.1 hm with hm | hm
        · exact hinv2.tabsOk st b d' hm
        · simp only [List.mem_singleton, Prod.mk.injEq] at hm
          obtain ⟨rfl, rfl, rfl⟩ := hm
          intro c cl hcl
          simp only [hs3]
          rw [k2]
          exact g2 c cl (by simpa using (List.getElem?_eq_some_iff.1 hcl).1) hcl
    have hmap : (hSubsOf (tabs ++ [(row, col, d)])).map (fun x => ids (x.1.2.2.name ++ "/" ++ x.2.name)) =
        (hSubsOf tabs).map (fun x => ids (x.1.2.2.name ++ "/" ++ x.2.name)) ++
        d.subtables.map fun sd => ids (d.name ++ "/" ++ sd.name) := by
      rw [hsubs]; simp [List.map_map, Function.comp_def]
    have hst : s3.core.startRow = row + d.rowsNumber := by simp only [hs3]; rw [k1, g1]
    obtain ⟨s', e', hinv'⟩ := ih (tabs ++ [(row, col, d)]) s3 hinv3
      (fun x hx => hr x (by simp [hx])) (fun x hx => hne x (by simp [hx]))
      (fun x hx => hw x (by simp [hx])) (fun x hx => hb x (by simp [hx]))
      (fun x hx => hrg x (by simp [hx]))
      (by
        rw [hst]
        exact fun r' c' d' hm => hroom r' c' d' (List.mem_cons_of_mem _ hm))
      (fun x hx => hc x (by simp [hx])) (fun x hx => hl x (by simp [hx]))
      (fun x hx => hid x (by simp [hx]))
      (by rw [hmap]; simpa using hnd)
      (by
        intro j hj
        apply hsel j
        rw [hsubs] at hj
        simp at hj ⊢; omega)
    refine ⟨s', ?_, ?_⟩
    · rw [List.foldlM_cons]
      have : hPackTable ids constIds maxRows s d = some s3 := by
        rw [hpk, e1, Option.bind_eq_bind, Option.bind_some, e2]
        rfl
      rw [this]; exact e'
    · rw [hst] at hinv'
      rw [hpl]
      simpa using hinv'

end

theorem hPlacements_mem_table {maxRows : Nat} {ds : List (LookupTableDef F)} {r0 c0 w0 row col : Nat}
    {d : LookupTableDef F} (h : (row, col, d) ∈ hPlacements maxRows r0 c0 w0 ds) : d ∈ ds := by
  induction ds generalizing r0 c0 w0 with
  | nil => simp [hPlacements] at h
  | cons d' ds ih =>
    rw [hPlacements] at h
    split_ifs at h <;>
    · rcases List.mem_cons.1 h with h | h
      · simp only [Prod.mk.injEq] at h
        simp [h.2.2]
      · exact List.mem_cons_of_mem _ (ih h)

theorem hPlacements_mem {maxRows : Nat} {ds : List (LookupTableDef F)} {d : LookupTableDef F} (h : d ∈ ds)
    (r0 c0 w0 : Nat) : ∃ row col, (row, col, d) ∈ hPlacements maxRows r0 c0 w0 ds := by
  induction ds generalizing r0 c0 w0 with
  | nil => simp at h
  | cons d' ds ih =>
    rw [hPlacements]
    rcases List.mem_cons.1 h with rfl | h
    · split_ifs
      · exact ⟨_, _, List.mem_cons_self⟩
      · exact ⟨_, _, List.mem_cons_self⟩
    · split_ifs
      · obtain ⟨a, b, hab⟩ := ih h (r0 + d'.rowsNumber) c0 (max w0 d'.columnsNumber)
        exact ⟨a, b, List.mem_cons_of_mem _ hab⟩
      · obtain ⟨a, b, hab⟩ := ih h (1 + d'.rowsNumber) (c0 + w0) d'.columnsNumber
        exact ⟨a, b, List.mem_cons_of_mem _ hab⟩

end Crypto3Zk
