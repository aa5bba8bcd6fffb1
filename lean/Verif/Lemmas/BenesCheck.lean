import Verif.Lemmas.BenesRoute
import Verif.Spec.Benes
import Mathlib.Data.Finset.Image
import Mathlib.Data.Nat.Log

/-! # The topology, the walk and the checker of the Benes network -/

namespace Crypto3Zk.Benes

open IntPerm

theorem clog_two_pow (d : Nat) : Nat.clog 2 (2 ^ d) = d := Nat.clog_pow 2 d (by omega)

theorem dimension_eq (d : Nat) : benesDimension (2 ^ d) = some d := by
  rw [benesDimension, clog_two_pow, if_pos rfl]

theorem numColumns_eq (d : Nat) : benesNumColumns (2 ^ d) = some (2 * d) := by
  simp [benesNumColumns, dimension_eq]

/-- the edges of column `c` -/
def edges (d c : Nat) : List (Nat × Nat) :=
  (List.range (2 ^ d)).map fun x => (x, benesCrossDestination d c x)

theorem topology_eq (d : Nat) : benesTopology (2 ^ d) = some ((List.range (2 * d)).map (edges d)) := by
  simp [benesTopology, numColumns_eq, dimension_eq, edges]

theorem shape_iff {d : Nat} {r : BenesRouting} :
    FitsTopology ((List.range (2 * d)).map (edges d)) r ↔ Shape (2 * d) (2 ^ d) r := by
  unfold FitsTopology Shape
  have : ((List.range (2 * d)).map (edges d)).map List.length = List.replicate (2 * d) (2 ^ d) := by
    rw [List.map_map]
    rw [List.eq_replicate_iff]
    simp [edges]
  rw [this, List.eq_replicate_iff]
  simp

theorem cell_get {cols rows : Nat} {r : BenesRouting} (hr : Shape cols rows r) {c : Nat} (hc : c < cols) :
    ∃ l, r[c]? = some l ∧ l.length = rows ∧ ∀ x < rows, l[x]? = some (cell r c x) := by
  obtain ⟨h1, h2⟩ := hr
  have hc' : c < r.length := by omega
  have hl := h2 _ (List.getElem_mem hc')
  refine ⟨r[c], List.getElem?_eq_getElem hc', hl, ?_⟩
  intro x hx
  unfold cell
  rw [List.getD_eq_getElem?_getD (l := r), List.getElem?_eq_getElem hc', Option.getD_some, List.getD_eq_getElem?_getD,
    List.getElem?_eq_getElem (by omega), Option.getD_some]

theorem mask_lt {d c : Nat} (hc : c < 2 * d) : ∃ j, j < d ∧ benesMask d c = 2 ^ j := by
  unfold benesMask
  split
  · exact ⟨d - 1 - c, by omega, by rw [Nat.one_shiftLeft]⟩
  · exact ⟨c - d, by omega, by rw [Nat.one_shiftLeft]⟩

theorem xor_mask_lt {d c x : Nat} (hc : c < 2 * d) (hx : x < 2 ^ d) : x ^^^ benesMask d c < 2 ^ d := by
  obtain ⟨j, hj, hm⟩ := mask_lt hc
  rw [hm]
  have := xor_in (k := d) (off := 0) (x := x) (j := j) (by simp) hj ⟨by omega, by omega⟩
  unfold In at this
  omega

theorem xor_xor_mask (x m : Nat) : x ^^^ m ^^^ m = x := by
  rw [Nat.xor_assoc, Nat.xor_self, Nat.xor_zero]

theorem next_lt {d c x : Nat} (r : BenesRouting) (hc : c < 2 * d) (hx : x < 2 ^ d) : next d r c x < 2 ^ d := by
  unfold next
  split
  · exact xor_mask_lt hc hx
  · exact hx

theorem go_lt {d : Nat} (r : BenesRouting) : ∀ (n s x : Nat), s + n ≤ 2 * d → x < 2 ^ d → go d r s n x < 2 ^ d
  | 0, _, _, _, hx => hx
  | n + 1, s, x, hs, hx => go_lt r n (s + 1) _ (by omega) (next_lt r (by omega) hx)

theorem follow_aux {d : Nat} {r : BenesRouting} (hr : Shape (2 * d) (2 ^ d) r) : ∀ (n s x : Nat), s + n = 2 * d → x < 2 ^ d →
    followSwitches ((List.range' s n).map (edges d)) (r.drop s) x = some (go d r s n x)
  | 0, s, x, hs, hx => by
    rw [List.drop_eq_nil_of_le (by rw [hr.1]; omega)]
    rfl
  | n + 1, s, x, hs, hx => by
    obtain ⟨l, hl, hlen, hc⟩ := cell_get hr (c := s) (by omega)
    have hlt : s < r.length := by rw [hr.1]; omega
    rw [List.drop_eq_getElem_cons hlt]
    rw [List.getElem?_eq_getElem hlt] at hl
    rw [Option.some.inj hl, List.range'_succ, List.map_cons, followSwitches, go]
    have he : (edges d s)[x]? = some (x, benesCrossDestination d s x) := by
      simp [edges, hx]
    rw [he, hc x hx]
    simp only [Option.bind_eq_bind, Option.bind_some]
    exact follow_aux hr n (s + 1) _ (by omega) (next_lt r (by omega) hx)

theorem follow_eq {d : Nat} {r : BenesRouting} (hr : Shape (2 * d) (2 ^ d) r) {x : Nat} (hx : x < 2 ^ d) :
    followSwitches ((List.range (2 * d)).map (edges d)) r x = some (go d r 0 (2 * d) x) := by
  have := follow_aux hr (2 * d) 0 x (by omega) hx
  rwa [List.drop_zero, ← List.range_eq_range'] at this

theorem agree_iff {d : Nat} {r : BenesRouting} (hr : Shape (2 * d) (2 ^ d) r) :
    SwitchesAgree ((List.range (2 * d)).map (edges d)) r ↔
      ∀ c x, c < 2 * d → x < 2 ^ d → cell r c (x ^^^ benesMask d c) = cell r c x := by
  unfold SwitchesAgree
  constructor
  · intro h c x hc hx
    obtain ⟨l, hl, hlen, hcell⟩ := cell_get hr hc
    have hlt : c < r.length := by rw [hr.1]; exact hc
    rw [List.getElem?_eq_getElem hlt] at hl
    have hmem : (edges d c, l) ∈ ((List.range (2 * d)).map (edges d)).zip r := by
      rw [List.mem_iff_getElem]
      refine ⟨c, by simp [hr.1, hc], ?_⟩
      simp [Option.some.inj hl]
    have := h _ hmem (x, x ^^^ benesMask d c) (by
      simp only [edges, List.mem_map, List.mem_range]
      exact ⟨x, hx, rfl⟩)
    simp only at this
    rw [hcell x hx, hcell _ (xor_mask_lt hc hx)] at this
    exact (Option.some.inj this).symm
  · intro h column hcol e he
    rw [List.mem_iff_getElem] at hcol
    obtain ⟨c, hc, rfl⟩ := hcol
    have hc' : c < 2 * d := by simp [hr.1] at hc; omega
    obtain ⟨l, hl, hlen, hcell⟩ := cell_get hr hc'
    have hlt : c < r.length := by rw [hr.1]; exact hc'
    rw [List.getElem?_eq_getElem hlt] at hl
    simp only [List.getElem_zip, List.getElem_map, List.getElem_range, Option.some.inj hl] at he ⊢
    simp only [edges, List.mem_map, List.mem_range] at he
    obtain ⟨x, hx, rfl⟩ := he
    simp only [benesCrossDestination]
    rw [hcell x hx, hcell _ (xor_mask_lt hc' hx), h c x hc' hx]

/-! ## one column -/

section
variable {T : Type} [Inhabited T]

theorem column_spec {d c : Nat} {r : BenesRouting} (hr : Shape (2 * d) (2 ^ d) r) (hc : c < 2 * d) {l : List Bool}
    (hl : r[c]? = some l) (cur : List T) (hcur : cur.length = 2 ^ d) :
    ∃ out, benesRouteColumn (benesMask d c) l cur = some out ∧ out.length = 2 ^ d ∧
      (∀ q v, out[q]? = some v → v = default ∨ ∃ p, p < 2 ^ d ∧ cur[p]? = some v ∧ next d r c p = q) ∧
      (∀ p, p < 2 ^ d → (∀ p', p' < 2 ^ d → next d r c p' = next d r c p → p' = p) →
        out[next d r c p]? = cur[p]?) := by
  obtain ⟨l', hl', hlen, hcell⟩ := cell_get hr hc
  rw [hl] at hl'
  obtain rfl := Option.some.inj hl'
  have key : ∀ m, m ≤ 2 ^ d → ∃ out, (List.range m).foldlM (fun next packet => do
      let s ← l[packet]?
      let x ← cur[packet]?
      let dst := if s then packet ^^^ benesMask d c else packet
      if dst < next.length then some (next.set dst x) else none) (List.replicate cur.length default) = some out ∧
      out.length = 2 ^ d ∧
      (∀ q v, out[q]? = some v → v = default ∨ ∃ p, p < m ∧ cur[p]? = some v ∧ next d r c p = q) ∧
      (∀ p, p < m → (∀ p', p' < m → next d r c p' = next d r c p → p' = p) → out[next d r c p]? = cur[p]?) := by
    intro m
    induction m with
    | zero =>
      intro _
      refine ⟨_, rfl, by simp [hcur], ?_, by simp⟩
      intro q v h
      left
      have := List.mem_of_getElem? h
      exact List.eq_of_mem_replicate this
    | succ m ih =>
      intro hm
      obtain ⟨out, h1, h2, h3, h4⟩ := ih (by omega)
      have hx : cur[m]? = some cur[m] := List.getElem?_eq_getElem (by omega)
      have hn : next d r c m < 2 ^ d := next_lt r hc (by omega)
      refine ⟨out.set (next d r c m) cur[m], ?_, by simp [h2], ?_, ?_⟩
      · rw [List.range_succ, List.foldlM_append, h1]
        simp only [Option.bind_eq_bind, Option.bind_some, List.foldlM_cons, List.foldlM_nil, Option.pure_def]
        rw [hcell m (by omega), hx]
        simp only [Option.bind_some]
        show ((if next d r c m < out.length then some (out.set (next d r c m) cur[m]) else none).bind some) = _
        rw [if_pos (by omega)]
        rfl
      · intro q v h
        rw [List.getElem?_set] at h
        split at h
        · rename_i e
          rw [if_pos (by omega)] at h
          right
          exact ⟨m, by omega, by rw [hx]; exact h, e⟩
        · rcases h3 q v h with h5 | ⟨p, hp, h6⟩
          · exact Or.inl h5
          · exact Or.inr ⟨p, by omega, h6⟩
      · intro p hp hinj
        rcases Nat.lt_succ_iff_lt_or_eq.1 hp with hlt | rfl
        · have : next d r c m ≠ next d r c p := by
            intro e
            have := hinj m (by omega) e
            omega
          rw [List.getElem?_set_ne this]
          exact h4 p hlt (fun p' hp' => hinj p' (by omega))
        · rw [List.getElem?_set_self (by omega), hx]
  have := key (2 ^ d) (le_refl _)
  rw [← hcur] at this
  unfold benesRouteColumn
  rw [hcur] at this ⊢
  exact this

/-- every column sends different rows to different rows, up to column `m` -/
def InjUpTo (d : Nat) (r : BenesRouting) (m : Nat) : Prop :=
  ∀ c < m, ∀ x y, x < 2 ^ d → y < 2 ^ d → next d r c x = next d r c y → x = y

theorem route_spec {d : Nat} {r : BenesRouting} (hr : Shape (2 * d) (2 ^ d) r) (start : List T)
    (hs : start.length = 2 ^ d) :
    ∃ out last, routeByBenes r start = some out ∧ out.length = 2 * d + 1 ∧ out[2 * d]? = some last ∧
      last.length = 2 ^ d ∧
      (∀ q v, last[q]? = some v → v = default ∨ ∃ p, p < 2 ^ d ∧ start[p]? = some v ∧ go d r 0 (2 * d) p = q) ∧
      (InjUpTo d r (2 * d) → ∀ x < 2 ^ d, last[go d r 0 (2 * d) x]? = start[x]?) := by
  have key : ∀ m, m ≤ 2 * d → ∃ acc : List (List T) × List T, (List.range m).foldlM
      (fun (acc : List (List T) × List T) column => do
        let switches ← r[column]?
        let next ← benesRouteColumn (benesMask d column) switches acc.2
        pure (acc.1 ++ [next], next)) ([start], start) = some acc ∧
      acc.1.length = m + 1 ∧ acc.1[m]? = some acc.2 ∧ acc.2.length = 2 ^ d ∧
      (∀ q v, acc.2[q]? = some v → v = default ∨ ∃ p, p < 2 ^ d ∧ start[p]? = some v ∧ go d r 0 m p = q) ∧
      (InjUpTo d r m → ∀ x < 2 ^ d, acc.2[go d r 0 m x]? = start[x]?) := by
    intro m
    induction m with
    | zero =>
      intro _
      refine ⟨_, rfl, rfl, rfl, hs, ?_, fun _ x _ => rfl⟩
      intro q v h
      right
      refine ⟨q, ?_, h, rfl⟩
      rw [← hs]
      exact (List.getElem?_eq_some_iff.1 h).1
    | succ m ih =>
      intro hm
      obtain ⟨acc, h1, h2, h3, h4, h5, h6⟩ := ih (by omega)
      obtain ⟨l, hl, -, -⟩ := cell_get hr (c := m) (by omega)
      obtain ⟨out, o1, o2, o3, o4⟩ := column_spec hr (by omega) hl acc.2 h4
      refine ⟨(acc.1 ++ [out], out), ?_, by simp [h2], ?_, o2, ?_, ?_⟩
      · rw [List.range_succ, List.foldlM_append, h1]
        simp only [Option.bind_eq_bind, Option.bind_some, List.foldlM_cons, List.foldlM_nil, Option.pure_def, hl, o1]
      · rw [List.getElem?_append_right (by omega), h2]
        simp
      · intro q v h
        rcases o3 q v h with h7 | ⟨p, hp, h7, h8⟩
        · exact Or.inl h7
        · rcases h5 p v h7 with h9 | ⟨p', hp', h9, h10⟩
          · exact Or.inl h9
          · right
            refine ⟨p', hp', h9, ?_⟩
            rw [go_succ, h10, Nat.zero_add, h8]
      · intro hinj x hx
        have hg := go_lt r m 0 x (by omega) hx
        rw [go_succ, Nat.zero_add, o4 _ hg (fun p' hp' e => hinj m (by omega) _ _ hp' hg e)]
        exact h6 (fun c hc => hinj c (by omega)) x hx
  obtain ⟨acc, h1, h2, h3, h4, h5, h6⟩ := key (2 * d) (le_refl _)
  refine ⟨acc.1, acc.2, ?_, h2, h3, h4, h5, h6⟩
  simp only [routeByBenes, hs, numColumns_eq, dimension_eq, Option.bind_eq_bind, Option.bind_some, Option.pure_def]
  simp only [Option.bind_eq_bind, Option.pure_def] at h1
  rw [h1]
  rfl

end

theorem inj_of_agree {d : Nat} {r : BenesRouting}
    (h : ∀ c x, c < 2 * d → x < 2 ^ d → cell r c (x ^^^ benesMask d c) = cell r c x) : InjUpTo d r (2 * d) := by
  intro c hc x y hx hy e
  unfold next at e
  split at e <;> split at e
  · have := congrArg (· ^^^ benesMask d c) e
    simpa only [xor_xor_mask] using this
  · rename_i h1 h2
    exfalso
    apply h2
    rw [← e, h c x hc hx, h1]
  · rename_i h1 h2
    exfalso
    apply h1
    rw [e, h c y hc hy, h2]
  · exact e

theorem inj_of_go {d : Nat} {r : BenesRouting} : ∀ (n s : Nat), s + n = 2 * d →
    (∀ x y, x < 2 ^ d → y < 2 ^ d → go d r s n x = go d r s n y → x = y) →
    ∀ c, s ≤ c → c < 2 * d → ∀ x y, x < 2 ^ d → y < 2 ^ d → next d r c x = next d r c y → x = y
  | 0, s, hs, _, c, h1, h2 => by omega
  | n + 1, s, hs, hinj, c, h1, h2 => by
    have first : ∀ x y, x < 2 ^ d → y < 2 ^ d → next d r s x = next d r s y → x = y := by
      intro x y hx hy e
      apply hinj x y hx hy
      rw [go, go, e]
    have himg : (Finset.range (2 ^ d)).image (next d r s) = Finset.range (2 ^ d) := by
      apply Finset.eq_of_subset_of_card_le
      · intro y hy
        obtain ⟨x, hx, rfl⟩ := Finset.mem_image.1 hy
        exact Finset.mem_range.2 (next_lt r (by omega) (Finset.mem_range.1 hx))
      · rw [Finset.card_image_of_injOn]
        intro x hx y hy e
        exact first x y (by simpa using hx) (by simpa using hy) e
    have rest : ∀ x y, x < 2 ^ d → y < 2 ^ d → go d r (s + 1) n x = go d r (s + 1) n y → x = y := by
      intro x y hx hy e
      have hx' := Finset.mem_range.2 hx
      have hy' := Finset.mem_range.2 hy
      rw [← himg] at hx' hy'
      obtain ⟨x0, hx0, rfl⟩ := Finset.mem_image.1 hx'
      obtain ⟨y0, hy0, rfl⟩ := Finset.mem_image.1 hy'
      have := hinj x0 y0 (Finset.mem_range.1 hx0) (Finset.mem_range.1 hy0) (by rw [go, go, e])
      rw [this]
    rcases Nat.eq_or_lt_of_le h1 with rfl | hlt
    · exact first
    · exact inj_of_go n (s + 1) (by omega) rest c hlt h2

/-! ## the checker -/

theorem check_spec (p : IntPerm) (last : List Nat) (f : Nat → Nat) : ∀ l : List Nat,
    (∀ i ∈ l, p.get i = some (f i) ∧ f i < last.length) →
    ∃ b, benesCheck p last l = some b ∧ (b = true ↔ ∀ i ∈ l, last[f i]? = some i)
  | [], _ => ⟨true, rfl, by simp⟩
  | i :: l, h => by
    obtain ⟨h1, h2⟩ := h i (by simp)
    obtain ⟨b, hb, hb'⟩ := check_spec p last f l (fun j hj => h j (by simp [hj]))
    have h3 := List.getElem?_eq_getElem h2
    simp only [benesCheck, h1, h3, Option.bind_eq_bind, Option.bind_some]
    by_cases e : last[f i] = i
    · refine ⟨b, by rw [if_neg (by simpa using e)]; exact hb, ?_⟩
      rw [hb', List.forall_mem_cons, h3, e]
      simp
    · refine ⟨false, by rw [if_pos e], ?_⟩
      simp [h3, e]

end Crypto3Zk.Benes
