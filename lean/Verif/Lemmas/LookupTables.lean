import Verif.Spec.LookupTables
import Verif.Lemmas.PlonkTable

namespace Crypto3Zk

set_option linter.unusedSectionVars false

variable {F : Type}

theorem writeAt_length (col : List F) (start : Nat) (vs : List F) (h : start + vs.length ≤ col.length) :
    (writeAt col start vs).length = col.length := by
  simp [writeAt]; omega

theorem writeAt_get (col : List F) (start : Nat) (vs : List F) (h : start + vs.length ≤ col.length)
    (r : Nat) (hr : r < vs.length) : (writeAt col start vs)[start + r]? = vs[r]? := by
  unfold writeAt
  rw [List.append_assoc, List.getElem?_append_right (by simp), List.length_take,
    List.getElem?_append_left (by omega)]
  congr 1
  omega

theorem writeAt_below (col : List F) (start : Nat) (vs : List F) (h : start + vs.length ≤ col.length)
    (r : Nat) (hr : r < start) : (writeAt col start vs)[r]? = col[r]? := by
  unfold writeAt
  rw [List.append_assoc, List.getElem?_append_left (by simp; omega), List.getElem?_take_of_lt hr]

/-- what is known about the state after some tables and subtables have been placed. -/
structure PackInv [Zero F] [One F] (ids : String → Option Nat) (numIds : Nat) (constIds : List Nat)
    (sels0 : List (List F)) (sel0 usable0 : Nat)
    (tabs : List (Nat × LookupTableDef F)) (subs : List (Nat × LookupTableDef F × SubtableDef))
    (s : PackState F) : Prop where
  colsLen : s.constCols.length = constIds.length
  colsLe : ∀ c ∈ s.constCols, c.length ≤ s.usableAfter
  usableLe : usable0 ≤ s.usableAfter
  bpLen : s.bpTables.length = numIds
  selsLen : s.selectors.length = sels0.length
  cur : s.curSel = sel0 + subs.length
  later : ∀ j, s.curSel ≤ j → s.selectors[j]? = sels0[j]?
  earlier : ∀ j, j < sel0 → s.selectors[j]? = sels0[j]?
  tabsOk : ∀ (st : Nat) (d : LookupTableDef F), (st, d) ∈ tabs → st + d.rowsNumber ≤ s.startRow ∧
    ∀ (c : Nat) (col : List F), d.table[c]? = some col → ∃ cc, s.constCols[c]? = some cc ∧
      ∀ (r : Nat) (v : F), col[r]? = some v → cc[st + r]? = some v
  subsOk : ∀ st d sd, (st, d, sd) ∈ subs → ∃ id tag opt len selc,
    ids (d.name ++ "/" ++ sd.name) = some id ∧ 0 < id ∧
    s.bpTables[id - 1]? = some ⟨sd.columns.length, tag, [opt]⟩ ∧
    lookupOption constIds 0 sd.columns = some opt ∧
    sel0 ≤ tag ∧ tag < s.curSel ∧ len ≤ s.usableAfter ∧
    selectorColumn len st sd.first sd.last = some selc ∧ s.selectors[tag]? = some selc

section
variable [Zero F] [One F] {ids : String → Option Nat} {numIds : Nat} {constIds : List Nat}
  {sels0 : List (List F)} {sel0 usable0 : Nat}

theorem placeColumn_spec (s : PackState F) (col : List F) (i : Nat) (hi : i < s.constCols.length) :
    ∃ s', placeColumn 0 s (col, i) = some s' ∧
      s'.selectors = s.selectors ∧ s'.bpTables = s.bpTables ∧ s'.curSel = s.curSel ∧
      s'.startRow = s.startRow ∧ s'.constCols.length = s.constCols.length ∧
      s.usableAfter ≤ s'.usableAfter ∧
      ((∀ c ∈ s.constCols, c.length ≤ s.usableAfter) →
        (∀ c ∈ s'.constCols, c.length ≤ s'.usableAfter) ∧ s.startRow + col.length ≤ s'.usableAfter) ∧
      (∃ cc, s'.constCols[i]? = some cc ∧ ∀ (r : Nat) (v : F), col[r]? = some v → cc[s.startRow + r]? = some v) ∧
      (∀ c cc, s.constCols[c]? = some cc → ∃ cc', s'.constCols[c]? = some cc' ∧
        (∀ r, r < s.startRow → r < cc.length → cc'[r]? = cc[r]?) ∧ (c ≠ i → cc' = cc)) := by
  unfold placeColumn
  simp only [Nat.zero_add, List.getElem?_eq_getElem hi, Option.bind_eq_bind, Option.bind_some,
    Option.pure_def]
  refine ⟨_, rfl, ?_⟩
  set c0 := s.constCols[i] with hc0
  set e := s.startRow + col.length with he
  have hgrow : ∃ c1 u1, (if c0.length < e then (resize c0 e (0 : F), if s.usableAfter < e then e else s.usableAfter)
      else (c0, s.usableAfter)) = (c1, u1) ∧ e ≤ c1.length ∧ s.usableAfter ≤ u1 ∧
      (c0.length ≤ s.usableAfter → c1.length ≤ u1 ∧ e ≤ u1) ∧ (∀ r, r < c0.length → c1[r]? = c0[r]?) := by
    by_cases h : c0.length < e
    · refine ⟨_, _, if_pos h, ?_, ?_, ?_, ?_⟩
      · rw [resize_length]
      · split_ifs <;> omega
      · intro _; rw [resize_length]; split_ifs <;> omega
      · intro r hr; exact resize_get_lt _ _ _ _ hr (by omega)
    · exact ⟨_, _, if_neg h, by omega, le_rfl, fun hh => ⟨hh, by omega⟩, fun r _ => rfl⟩
  obtain ⟨c1, u1, heq, hl, hu, hcu, hold⟩ := hgrow
  rw [heq]
  refine ⟨rfl, rfl, rfl, rfl, by simp, hu, ?_, ?_, ?_⟩
  · intro hle
    have h1 := hcu (hle _ (List.getElem_mem hi))
    refine ⟨fun c hc => ?_, h1.2⟩
    rcases List.mem_or_eq_of_mem_set hc with hc | rfl
    · exact (hle c hc).trans hu
    · rw [writeAt_length _ _ _ hl]; exact h1.1
  · refine ⟨_, by rw [List.getElem?_set_self hi], fun r v hv => ?_⟩
    have hr : r < col.length := (List.getElem?_eq_some_iff.1 hv).1
    rw [writeAt_get _ _ _ hl r hr, hv]
  · intro c cc hc
    by_cases hci : c = i
    · subst hci
      refine ⟨_, by rw [List.getElem?_set_self hi], fun r hr hrl => ?_, fun h => absurd rfl h⟩
      have hcc : cc = c0 := by
        rw [List.getElem?_eq_getElem hi] at hc
        simpa [hc0] using hc.symm
      subst hcc
      rw [writeAt_below _ _ _ hl r hr, hold r hrl]
    · refine ⟨cc, by rw [List.getElem?_set_ne (Ne.symm hci)]; exact hc, fun _ _ _ => rfl, fun _ => rfl⟩

/-- placing all columns of a table, from column `k` on. -/
theorem placeColumns_spec (d : LookupTableDef F)
    (tabs : List (Nat × LookupTableDef F)) (subs : List (Nat × LookupTableDef F × SubtableDef)) :
    ∀ (cols : List (List F)) (k : Nat) (s : PackState F),
    PackInv ids numIds constIds sels0 sel0 usable0 tabs subs s →
    (∀ (j : Nat) (col : List F), cols[j]? = some col → d.table[k + j]? = some col) →
    k + cols.length ≤ constIds.length →
    (∀ (c : Nat) (col : List F), c < k → d.table[c]? = some col → ∃ cc, s.constCols[c]? = some cc ∧
      ∀ (r : Nat) (v : F), col[r]? = some v → cc[s.startRow + r]? = some v) →
    (∀ st d', (st, d') ∈ tabs → ∀ col ∈ d'.table, col.length = d'.rowsNumber) →
    ∃ s', (cols.zipIdx k).foldlM (placeColumn 0) s = some s' ∧
      PackInv ids numIds constIds sels0 sel0 usable0 tabs subs s' ∧ s'.startRow = s.startRow ∧
      (∀ (c : Nat) (col : List F), c < k + cols.length → d.table[c]? = some col → ∃ cc, s'.constCols[c]? = some cc ∧
        ∀ (r : Nat) (v : F), col[r]? = some v → cc[s.startRow + r]? = some v) ∧
      (∀ col ∈ cols, s.startRow + col.length ≤ s'.usableAfter) ∧ s.usableAfter ≤ s'.usableAfter := by
  intro cols
  induction cols with
  | nil =>
    intro k s hinv hd hk hdone hrect
    exact ⟨s, by simp, hinv, rfl, by simpa using hdone, by simp, le_rfl⟩
  | cons col cols ih =>
    intro k s hinv hd hk hdone hrect
    have hk' : k < s.constCols.length := by rw [hinv.colsLen]; simp at hk; omega
    obtain ⟨s1, e1, h1, h2, h3, h4, h5, h6, h7, h8, h9⟩ := placeColumn_spec s col k hk'
    have h7' := h7 hinv.colsLe
    have hinv1 : PackInv ids numIds constIds sels0 sel0 usable0 tabs subs s1 := by
      refine ⟨by rw [h5, hinv.colsLen], h7'.1, hinv.usableLe.trans h6, by rw [h2, hinv.bpLen],
        by rw [h1, hinv.selsLen], by rw [h3, hinv.cur], by rw [h3, h1]; exact hinv.later,
        by rw [h1]; exact hinv.earlier, ?_, ?_⟩
      · intro st d' hm
        obtain ⟨a, b⟩ := hinv.tabsOk st d' hm
        refine ⟨by rw [h4]; exact a, fun c col' hc => ?_⟩
        obtain ⟨cc, hcc, hval⟩ := b c col' hc
        obtain ⟨cc', hcc', hkeep, -⟩ := h9 c cc hcc
        refine ⟨cc', hcc', fun r v hv => ?_⟩
        have hr : r < col'.length := (List.getElem?_eq_some_iff.1 hv).1
        have hlen := hrect st d' hm col' (List.mem_of_getElem? hc)
        have hold := hval r v hv
        rw [hkeep _ (by omega) (List.getElem?_eq_some_iff.1 hold).1]
        exact hold
      · intro st d' sd hm
        obtain ⟨id, tag, opt, len, selc, b1, b2, b3, b4, b5, b6, b7, b8, b9⟩ := hinv.subsOk st d' sd hm
        exact ⟨id, tag, opt, len, selc, b1, b2, by rw [h2]; exact b3, b4, b5, by rw [h3]; exact b6,
          b7.trans h6, b8, by rw [h1]; exact b9⟩
    obtain ⟨s2, e2, hinv2, g1, g2, g3, g4⟩ := ih (k + 1) s1 hinv1
      (fun j col' hj => by have := hd (j + 1) col' (by simpa using hj); rw [← this]; congr 1; omega)
      (by simp at hk; omega)
      (by
        intro c col' hc hcol
        rw [h4]
        rcases Nat.lt_or_eq_of_le (Nat.lt_succ_iff.1 hc) with hlt | rfl
        · obtain ⟨cc, hcc, hval⟩ := hdone c col' hlt hcol
          obtain ⟨cc', hcc', -, hsame⟩ := h9 c cc hcc
          rw [hsame (by omega)] at hcc'
          exact ⟨cc, hcc', hval⟩
        · have := hd 0 col (by simp)
          rw [Nat.add_zero, hcol] at this
          obtain rfl : col' = col := by simpa using this
          exact h8)
      hrect
    refine ⟨s2, ?_, hinv2, by rw [g1, h4], ?_, ?_, h6.trans g4⟩
    · rw [List.zipIdx_cons, List.foldlM_cons, e1]; exact e2
    · intro c col' hc hcol
      rw [← h4]
      exact g2 c col' (by simp at hc; omega) hcol
    · intro col' hm
      rcases List.mem_cons.1 hm with rfl | hm
      · exact h7'.2.trans g4
      · have := g3 col' hm; rw [h4] at this; exact this

theorem lookupOption_some (base : Nat) (columns : List Nat)
    (h : ∀ c ∈ columns, base + c < constIds.length) :
    ∃ opt, lookupOption constIds base columns = some opt := by
  induction columns with
  | nil => exact ⟨[], rfl⟩
  | cons c cs ih =>
    obtain ⟨o, ho⟩ := ih (fun c hc => h c (by simp [hc]))
    have hc := h c (by simp)
    refine ⟨⟨constIds[base + c], 0, false, .constant⟩ :: o, ?_⟩
    unfold lookupOption at ho ⊢
    rw [List.mapM_cons, ho]
    simp [List.getElem?_eq_getElem hc]

/-- packing the subtables of one table. -/
theorem packSubtables_spec (d : LookupTableDef F) (tabs : List (Nat × LookupTableDef F)) :
    ∀ (sts : List SubtableDef) (subs : List (Nat × LookupTableDef F × SubtableDef)) (s : PackState F),
    PackInv ids numIds constIds sels0 sel0 usable0 tabs subs s →
    (∀ sd ∈ sts, ∀ c ∈ sd.columns, c < constIds.length) →
    (∀ sd ∈ sts, s.startRow + sd.last < s.usableAfter ∨ sd.last < sd.first) →
    (∀ sd ∈ sts, ∃ i, ids (d.name ++ "/" ++ sd.name) = some i ∧ 0 < i ∧ i ≤ numIds) →
    ((subs.map fun x => ids (x.2.1.name ++ "/" ++ x.2.2.name)) ++
      sts.map fun sd => ids (d.name ++ "/" ++ sd.name)).Nodup →
    (∀ j, j < subs.length + sts.length → sels0[sel0 + j]? = some []) →
    ∃ s', sts.foldlM (packSubtable ids constIds d.name) s = some s' ∧
      PackInv ids numIds constIds sels0 sel0 usable0 tabs
        (subs ++ sts.map fun sd => (s.startRow, d, sd)) s' ∧
      s'.startRow = s.startRow ∧ s'.constCols = s.constCols ∧ s'.usableAfter = s.usableAfter := by
  intro sts
  induction sts with
  | nil =>
    intro subs s hinv _ _ _ _ _
    exact ⟨s, rfl, by simpa using hinv, rfl, rfl, rfl⟩
  | cons sd sts ih =>
    intro subs s hinv hcol hrow hid hnd hsel
    obtain ⟨opt, hopt⟩ := lookupOption_some (constIds := constIds) 0 sd.columns
      (fun c hc => by rw [Nat.zero_add]; exact hcol sd (by simp) c hc)
    obtain ⟨id, hidv, hid0, hidn⟩ := hid sd (by simp)
    have hselc : ∃ selc : List F, selectorColumn s.usableAfter s.startRow sd.first sd.last = some selc := by
      unfold selectorColumn
      rw [if_neg]
      · exact ⟨_, rfl⟩
      · rcases hrow sd (by simp) with h | h <;> omega
    obtain ⟨selc, hselc⟩ := hselc
    have hfree : s.selectors[s.curSel]? = some [] := by
      rw [hinv.later _ le_rfl, hinv.cur]
      exact hsel _ (by simp)
    have hcurlt : s.curSel < s.selectors.length := (List.getElem?_eq_some_iff.1 hfree).1
    set s1 : PackState F := { s with
      bpTables := s.bpTables.set (id - 1) ⟨sd.columns.length, s.curSel, [opt]⟩,
      selectors := s.selectors.set s.curSel selc, curSel := s.curSel + 1 } with hs1
    have e1 : packSubtable ids constIds d.name s sd = some s1 := by
      unfold packSubtable
      have h2 : declare ids s.bpTables (d.name ++ "/" ++ sd.name) ⟨sd.columns.length, s.curSel, [opt]⟩ =
          some (s.bpTables.set (id - 1) ⟨sd.columns.length, s.curSel, [opt]⟩) := by
        unfold declare
        rw [hidv]
        simp only [Option.bind_eq_bind, Option.bind_some]
        rw [if_neg (by omega), if_pos (by rw [hinv.bpLen]; omega)]
      have h3 : fillColumn s.selectors s.curSel selc = some (s.selectors.set s.curSel selc) := by
        unfold fillColumn
        rw [hfree]; simp
      rw [hselc, hopt, Option.bind_eq_bind, Option.bind_some, Option.bind_eq_bind, Option.bind_some,
        h2, Option.bind_eq_bind, Option.bind_some, h3]
      rfl
    have hinv1 : PackInv ids numIds constIds sels0 sel0 usable0 tabs
        (subs ++ [(s.startRow, d, sd)]) s1 := by
      refine ⟨hinv.colsLen, hinv.colsLe, hinv.usableLe, by simp [hs1, hinv.bpLen],
        by simp [hs1, hinv.selsLen], by simp [hs1, hinv.cur]; omega, ?_, ?_, hinv.tabsOk, ?_⟩
      · intro j hj
        simp only [hs1] at hj ⊢
        rw [List.getElem?_set_ne (by omega)]
        exact hinv.later j (by omega)
      · intro j hj
        simp only [hs1]
        have := hinv.cur
        rw [List.getElem?_set_ne (by omega)]
        exact hinv.earlier j hj
      · intro st d' sd' hm
        rcases List.mem_append.1 hm with hm | hm
        · obtain ⟨id', tag, opt', len, selc', b1, b2, b3, b4, b5, b6, b7, b8, b9⟩ :=
            hinv.subsOk st d' sd' hm
          have hne : id' ≠ id := by
            rintro rfl
            rw [List.nodup_append] at hnd
            exact hnd.2.2 _ (List.mem_map.2 ⟨_, hm, rfl⟩) _ (List.mem_map.2 ⟨sd, by simp, rfl⟩)
              (b1.trans hidv.symm)
          refine ⟨id', tag, opt', len, selc', b1, b2, ?_, b4, b5, ?_, b7, b8, ?_⟩
          · simp only [hs1]
            rw [List.getElem?_set_ne (by omega)]; exact b3
          · simp only [hs1]; omega
          · simp only [hs1]
            rw [List.getElem?_set_ne (by omega)]; exact b9
        · simp only [List.mem_singleton, Prod.mk.injEq] at hm
          obtain ⟨rfl, rfl, rfl⟩ := hm
          refine ⟨id, s.curSel, opt, s.usableAfter, selc, hidv, hid0, ?_, hopt, ?_, ?_, le_rfl, hselc, ?_⟩
          · simp only [hs1]
            rw [List.getElem?_set_self (by rw [hinv.bpLen]; omega)]
          · rw [hinv.cur]; omega
          · simp [hs1]
          · simp only [hs1]
            rw [List.getElem?_set_self hcurlt]
    obtain ⟨s2, e2, hinv2, g1, g2, g3⟩ := ih (subs ++ [(s.startRow, d, sd)]) s1 hinv1
      (fun x hx => hcol x (by simp [hx])) (fun x hx => hrow x (by simp [hx]))
      (fun x hx => hid x (by simp [hx]))
      (by simpa using hnd)
      (fun j hj => hsel j (by simp at hj ⊢; omega))
    refine ⟨s2, ?_, ?_, g1, g2, g3⟩
    · rw [List.foldlM_cons, e1]; exact e2
    · simpa using hinv2

/-- the subtables of a list of placed tables. -/
def subsOf (l : List (Nat × LookupTableDef F)) : List (Nat × LookupTableDef F × SubtableDef) :=
  l.flatMap fun x => x.2.subtables.map fun sd => (x.1, x.2, sd)

theorem packTables_spec :
    ∀ (ds : List (LookupTableDef F)) (tabs : List (Nat × LookupTableDef F)) (s : PackState F),
    PackInv ids numIds constIds sels0 sel0 usable0 tabs (subsOf tabs) s →
    (∀ st d, (st, d) ∈ tabs → ∀ col ∈ d.table, col.length = d.rowsNumber) →
    (∀ d ∈ ds, ∀ col ∈ d.table, col.length = d.rowsNumber) →
    (∀ d ∈ ds, d.table.length ≤ constIds.length) →
    (∀ d ∈ ds, ∀ sd ∈ d.subtables, ∀ c ∈ sd.columns, c < d.table.length) →
    (∀ d ∈ ds, ∀ sd ∈ d.subtables, sd.last < d.rowsNumber ∧ (d.table ≠ [] ∨ sd.last < sd.first)) →
    (∀ d ∈ ds, ∀ sd ∈ d.subtables, ∃ i, ids (d.name ++ "/" ++ sd.name) = some i ∧ 0 < i ∧ i ≤ numIds) →
    ((subsOf tabs).map (fun x => ids (x.2.1.name ++ "/" ++ x.2.2.name)) ++
      ds.flatMap fun d => d.subtables.map fun sd => ids (d.name ++ "/" ++ sd.name)).Nodup →
    (∀ j, j < (subsOf tabs).length + (ds.flatMap (·.subtables)).length → sels0[sel0 + j]? = some []) →
    ∃ s', ds.foldlM (packTable ids constIds) s = some s' ∧
      PackInv ids numIds constIds sels0 sel0 usable0 (tabs ++ placements s.startRow ds)
        (subsOf (tabs ++ placements s.startRow ds)) s' := by
  intro ds
  induction ds with
  | nil =>
    intro tabs s hinv _ _ _ _ _ _ _ _
    exact ⟨s, rfl, by simpa [placements] using hinv⟩
  | cons d ds ih =>
    intro tabs s hinv hr0 hr hf hc hl hid hnd hsel
    obtain ⟨s1, e1, hinv1, g1, g2, g3, g4⟩ := placeColumns_spec d tabs (subsOf tabs) d.table 0 s hinv
      (fun j col hj => by simpa using hj) (by simpa using hf d (by simp)) (by simp) hr0
    have hnd' : ((subsOf tabs).map (fun x => ids (x.2.1.name ++ "/" ++ x.2.2.name)) ++
        d.subtables.map fun sd => ids (d.name ++ "/" ++ sd.name)).Nodup := by
      rw [List.flatMap_cons, ← List.append_assoc] at hnd
      exact (List.nodup_append.1 hnd).1
    obtain ⟨s2, e2, hinv2, k1, k2, k3⟩ := packSubtables_spec d tabs d.subtables (subsOf tabs) s1 hinv1
      (fun sd hsd c hcc => (hc d (by simp) sd hsd c hcc).trans_le (hf d (by simp)))
      (by
        intro sd hsd
        obtain ⟨h1, h2⟩ := hl d (by simp) sd hsd
        rcases h2 with h2 | h2
        · left
          obtain ⟨col, hcol⟩ := List.exists_mem_of_ne_nil _ h2
          have := g3 col hcol
          have := hr d (by simp) col hcol
          rw [g1]; omega
        · exact Or.inr h2)
      (hid d (by simp)) hnd'
      (fun j hj => hsel j (by simp only [List.flatMap_cons, List.length_append] ; omega))
    set s3 : PackState F := { s2 with startRow := s2.startRow + d.rowsNumber } with hs3
    have hsubs : subsOf (tabs ++ [(s.startRow, d)]) =
        subsOf tabs ++ d.subtables.map fun sd => (s1.startRow, d, sd) := by
      simp [subsOf, g1]
    have hinv3 : PackInv ids numIds constIds sels0 sel0 usable0 (tabs ++ [(s.startRow, d)])
        (subsOf (tabs ++ [(s.startRow, d)])) s3 := by
      rw [hsubs]
      refine ⟨hinv2.colsLen, hinv2.colsLe, hinv2.usableLe, hinv2.bpLen, hinv2.selsLen, hinv2.cur,
        hinv2.later, hinv2.earlier, ?_, hinv2.subsOk⟩
      intro st d' hm
      rcases List.mem_append.1 hm with hm | hm
      · obtain ⟨a, b⟩ := hinv2.tabsOk st d' hm
        exact ⟨by simp only [hs3]; omega, b⟩
      · simp only [List.mem_singleton, Prod.mk.injEq] at hm
        obtain ⟨rfl, rfl⟩ := hm
        refine ⟨by simp only [hs3]; rw [k1, g1], fun c col hcol => ?_⟩
        simp only [hs3]
        rw [k2]
        exact g2 c col (by simpa using (List.getElem?_eq_some_iff.1 hcol).1) hcol
    have hmap : (subsOf (tabs ++ [(s.startRow, d)])).map (fun x => ids (x.2.1.name ++ "/" ++ x.2.2.name)) =
        (subsOf tabs).map (fun x => ids (x.2.1.name ++ "/" ++ x.2.2.name)) ++
        d.subtables.map fun sd => ids (d.name ++ "/" ++ sd.name) := by
      rw [hsubs]; simp [List.map_map, Function.comp_def]
    obtain ⟨s', e', hinv'⟩ := ih (tabs ++ [(s.startRow, d)]) s3 hinv3
      (by
        intro st d' hm
        rcases List.mem_append.1 hm with hm | hm
        · exact hr0 st d' hm
        · simp only [List.mem_singleton, Prod.mk.injEq] at hm
          obtain ⟨rfl, rfl⟩ := hm
          exact hr _ (by simp))
      (fun x hx => hr x (by simp [hx])) (fun x hx => hf x (by simp [hx]))
      (fun x hx => hc x (by simp [hx])) (fun x hx => hl x (by simp [hx]))
      (fun x hx => hid x (by simp [hx]))
      (by rw [hmap]; simpa using hnd)
      (by
        intro j hj
        apply hsel j
        rw [hsubs] at hj
        simp at hj ⊢; omega)
    refine ⟨s', ?_, ?_⟩
    · rw [List.foldlM_cons]
      have : packTable ids constIds s d = some s3 := by
        unfold packTable
        rw [e1, Option.bind_eq_bind, Option.bind_some, e2]
        rfl
      rw [this]; exact e'
    · have hst : s3.startRow = s.startRow + d.rowsNumber := by simp only [hs3]; rw [k1, g1]
      rw [hst] at hinv'
      simpa [placements] using hinv'

end

/-! ### filling the constant columns -/

theorem fillConstants_spec : ∀ (l : List (Nat × List F)) (cs : List (List F)),
    (l.map Prod.fst).Nodup → (∀ i ∈ l.map Prod.fst, cs[i]? = some []) →
    ∃ cs', fillConstants cs l = some cs' ∧ (∀ i c, (i, c) ∈ l → cs'[i]? = some c) ∧
      (∀ i, i ∉ l.map Prod.fst → cs'[i]? = cs[i]?) := by
  intro l
  induction l with
  | nil => intro cs _ _; exact ⟨cs, rfl, by simp, by simp⟩
  | cons p l ih =>
    intro cs hnd hemp
    obtain ⟨i, c⟩ := p
    have hi : cs[i]? = some [] := hemp i (by simp)
    have hil : i < cs.length := (List.getElem?_eq_some_iff.1 hi).1
    simp only [List.map_cons, List.nodup_cons] at hnd
    obtain ⟨cs', e, h1, h2⟩ := ih (cs.set i c) hnd.2 (by
      intro j hj
      have hne : i ≠ j := fun h => hnd.1 (h ▸ hj)
      rw [List.getElem?_set_ne hne]
      exact hemp j (by simp only [List.map_cons, List.mem_cons]; exact Or.inr hj))
    refine ⟨cs', ?_, ?_, ?_⟩
    · unfold fillConstants at e ⊢
      rw [List.foldlM_cons]
      have : fillColumn cs i c = some (cs.set i c) := by simp [fillColumn, hi]
      simp only [this]; exact e
    · intro j c' hm
      rcases List.mem_cons.1 hm with hm | hm
      · simp only [Prod.mk.injEq] at hm
        obtain ⟨rfl, rfl⟩ := hm
        rw [h2 _ hnd.1, List.getElem?_set_self hil]
      · exact h1 j c' hm
    · intro j hj
      simp only [List.map_cons, List.mem_cons, not_or] at hj
      rw [h2 j hj.2, List.getElem?_set_ne (Ne.symm hj.1)]

theorem placements_mem_start {ds : List (LookupTableDef F)} {st0 st : Nat} {d : LookupTableDef F}
    (h : (st, d) ∈ placements st0 ds) : st0 ≤ st ∧ d ∈ ds := by
  induction ds generalizing st0 with
  | nil => simp [placements] at h
  | cons d' ds ih =>
    simp only [placements, List.mem_cons, Prod.mk.injEq] at h
    rcases h with ⟨rfl, rfl⟩ | h
    · exact ⟨le_rfl, by simp⟩
    · have := ih h; exact ⟨by omega, by simp [this.2]⟩

theorem placements_mem {ds : List (LookupTableDef F)} {d : LookupTableDef F} (h : d ∈ ds) (st0 : Nat) :
    ∃ st, (st, d) ∈ placements st0 ds := by
  induction ds generalizing st0 with
  | nil => simp at h
  | cons d' ds ih =>
    rcases List.mem_cons.1 h with rfl | h
    · exact ⟨st0, by simp [placements]⟩
    · obtain ⟨st, hst⟩ := ih h (st0 + d'.rowsNumber)
      exact ⟨st, by simp [placements, hst]⟩

/-- the rows switched on by a subtable's selector column. -/
theorem selectorColumn_rows [Zero F] [One F] [NeZero (1 : F)] [DecidableEq F] (len st a b : Nat) (selc : List F)
    (h : selectorColumn len st a b = some selc) :
    ((List.range selc.length).filter fun r => selc[r]? = some (1 : F)) =
      List.range' (st + a) (b + 1 - a) := by
  unfold selectorColumn at h
  split_ifs at h with hb
  simp only [Option.some.injEq] at h
  subst h
  simp only [List.length_map, List.length_range]
  have h1 : (List.range len).filter (fun r => decide (((List.range len).map fun r =>
      if st + a ≤ r ∧ r ≤ st + b then (1 : F) else 0)[r]? = some 1)) =
      (List.range len).filter fun r => decide (st + a ≤ r ∧ r ≤ st + b) := by
    apply List.filter_congr
    intro r hr
    rw [List.mem_range] at hr
    simp only [List.getElem?_map, List.getElem?_range hr, Option.map_some, Option.some.injEq]
    by_cases h : st + a ≤ r ∧ r ≤ st + b
    · simp [h]
    · simp [h]
  rw [h1]
  apply List.Perm.eq_of_pairwise (le := (· < ·))
  · intro x y _ _ h1 h2; omega
  · exact (List.pairwise_lt_range).filter _
  · exact List.pairwise_lt_range'
  · apply (List.perm_ext_iff_of_nodup ?_ ?_).2
    · intro r
      simp only [List.mem_filter, List.mem_range, decide_eq_true_eq, List.mem_range'_1]
      omega
    · exact (List.nodup_range).filter _
    · exact List.nodup_range'

end Crypto3Zk
