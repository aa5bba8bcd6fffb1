import Verif.Model.AsWaksman
import Verif.Lemmas.BenesRoute
import Mathlib.Data.List.GetD

/-! # What the topology of the AS-Waksman network contains -/

namespace Crypto3Zk.Waksman

open Benes (In)

instance (n lo x : Nat) : Decidable (In n lo x) := by unfold In; infer_instance

/-! ## positions -/

/-- the wire that enters no switch, if the number of packets is odd -/
def Straight (n lo x : Nat) : Prop := n % 2 = 1 ∧ x = lo + n - 1

instance (n lo x : Nat) : Decidable (Straight n lo x) := by unfold Straight; infer_instance

/-- the upper of the two rows of a switch -/
def canon (lo x : Nat) : Nat := lo + 2 * ((x - lo) / 2)

/-- the other row of a switch -/
def other (lo x : Nat) : Nat := if (x - lo) % 2 = 0 then x + 1 else x - 1

/-- the row in the next column of a packet sent to the top or the bottom -/
def out (n lo : Nat) (b : Bool) (x : Nat) : Nat := lo + (x - lo) / 2 + if b then 0 else n / 2

/-- the row reached from row `p` after the subnetworks -/
def innerDest (n lo p : Nat) : Nat :=
  if p < lo + n / 2 then lo + 2 * (p - lo)
  else if p < lo + n / 2 + n / 2 then lo + 2 * (p - lo - n / 2) + 1 else p

/-! ## cells of the topology -/

/-- the two destinations of a row -/
def ed (t : AsWaksmanTopology) (c x : Nat) : Nat × Nat := (t.getD c []).getD x (0, 0)

/-- `cols` columns of `rows` entries -/
def ShapeT (cols rows : Nat) (t : AsWaksmanTopology) : Prop := t.length = cols ∧ ∀ c ∈ t, c.length = rows

theorem ed_get {cols rows : Nat} {t : AsWaksmanTopology} (ht : ShapeT cols rows t) {c : Nat} (hc : c < cols) :
    ∃ l, t[c]? = some l ∧ l.length = rows ∧ ∀ x < rows, l[x]? = some (ed t c x) := by
  obtain ⟨h1, h2⟩ := ht
  have hc' : c < t.length := by omega
  have hl := h2 _ (List.getElem_mem hc')
  refine ⟨t[c], List.getElem?_eq_getElem hc', hl, ?_⟩
  intro x hx
  unfold ed
  rw [List.getD_eq_getElem?_getD (l := t), List.getElem?_eq_getElem hc', Option.getD_some, List.getD_eq_getElem?_getD,
    List.getElem?_eq_getElem (by omega), Option.getD_some]

theorem set_spec {cols rows : Nat} {t : AsWaksmanTopology} (ht : ShapeT cols rows t) {c x : Nat} (hc : c < cols)
    (hx : x < rows) {l : List (Nat × Nat)} (hl : t[c]? = some l) (e : Nat × Nat) :
    ShapeT cols rows (t.set c (l.set x e)) ∧
      ∀ c' x', ed (t.set c (l.set x e)) c' x' = if c' = c ∧ x' = x then e else ed t c' x' := by
  obtain ⟨h1, h2⟩ := ht
  have hc' : c < t.length := by omega
  rw [List.getElem?_eq_getElem hc'] at hl
  obtain rfl := Option.some.inj hl
  have hlen : (t[c]).length = rows := h2 _ (List.getElem_mem _)
  refine ⟨⟨by simp [h1], ?_⟩, ?_⟩
  · intro l hl'
    rcases List.mem_or_eq_of_mem_set hl' with h | rfl
    · exact h2 _ h
    · simp [hlen]
  · intro c' x'
    unfold ed
    simp only [List.getD_eq_getElem?_getD, List.getElem?_set]
    by_cases hcc : c = c'
    · subst hcc
      simp only [hc', if_true, Option.getD_some, List.getElem?_set, List.getElem?_eq_getElem hc', true_and]
      by_cases hxx : x = x'
      · subst hxx; simp [hlen, hx]
      · simp [hxx, Ne.symm hxx]
    · simp [hcc, Ne.symm hcc]

theorem setFirst_spec {cols rows : Nat} {t : AsWaksmanTopology} (ht : ShapeT cols rows t) {c x : Nat} (hc : c < cols)
    (hx : x < rows) (v : Nat) :
    ∃ t', awSetFirst t c x v = some t' ∧ ShapeT cols rows t' ∧
      ∀ c' x', ed t' c' x' = if c' = c ∧ x' = x then (v, (ed t c x).2) else ed t c' x' := by
  obtain ⟨l, h1, h2, h3⟩ := ed_get ht hc
  obtain ⟨h4, h5⟩ := set_spec ht hc hx h1 (v, (ed t c x).2)
  exact ⟨_, by simp [awSetFirst, h1, h3 x hx], h4, h5⟩

theorem setSecond_spec {cols rows : Nat} {t : AsWaksmanTopology} (ht : ShapeT cols rows t) {c x : Nat} (hc : c < cols)
    (hx : x < rows) (v : Nat) :
    ∃ t', awSetSecond t c x v = some t' ∧ ShapeT cols rows t' ∧
      ∀ c' x', ed t' c' x' = if c' = c ∧ x' = x then ((ed t c x).1, v) else ed t c' x' := by
  obtain ⟨l, h1, h2, h3⟩ := ed_get ht hc
  obtain ⟨h4, h5⟩ := set_spec ht hc hx h1 ((ed t c x).1, v)
  exact ⟨_, by simp [awSetSecond, h1, h3 x hx], h4, h5⟩

theorem first_spec {cols rows : Nat} {t : AsWaksmanTopology} (ht : ShapeT cols rows t) {c x : Nat} (hc : c < cols)
    (hx : x < rows) : awFirst t c x = some (ed t c x).1 := by
  obtain ⟨l, h1, h2, h3⟩ := ed_get ht hc
  simp [awFirst, h1, h3 x hx]

/-! ## the loops -/

theorem straightRow_spec {cols rows : Nat} {t : AsWaksmanTopology} (ht : ShapeT cols rows t) {left right lo x v : Nat}
    (hl : left < cols) (hr : right < cols) (hx : x < rows) {dests : List Nat} (hv : dests[x - lo]? = some v) :
    ∃ t', awStraightRow left right lo dests t x = some t' ∧ ShapeT cols rows t' ∧
      ∀ c y, ed t' c y = if c = right ∧ y = x then (v, v) else if c = left ∧ y = x then (x, x) else ed t c y := by
  obtain ⟨t1, e1, s1, c1⟩ := setSecond_spec ht hl hx x
  obtain ⟨t2, e2, s2, c2⟩ := setFirst_spec s1 hl hx x
  obtain ⟨t3, e3, s3, c3⟩ := setSecond_spec s2 hr hx v
  obtain ⟨t4, e4, s4, c4⟩ := setFirst_spec s3 hr hx v
  refine ⟨t4, by simp [awStraightRow, e1, e2, e3, e4, hv], s4, ?_⟩
  intro c y
  rw [c4]
  split
  · rw [c3, if_pos ⟨rfl, rfl⟩]
  · rename_i h
    rw [c3, if_neg h, c2]
    split
    · rw [c1, if_pos ⟨rfl, rfl⟩]
    · rename_i h'
      rw [c1, if_neg h']

theorem straightRows_spec {cols rows : Nat} {t : AsWaksmanTopology} (ht : ShapeT cols rows t) {left right lo n : Nat}
    (hl : left < cols) (hr : right < cols) (hn : lo + n ≤ rows) {dests : List Nat} {rhs : Nat → Nat}
    (hv : ∀ i < n, dests[i]? = some (rhs (lo + i))) : ∀ m ≤ n,
    ∃ t', (List.range' lo m).foldlM (awStraightRow left right lo dests) t = some t' ∧ ShapeT cols rows t' ∧
      ∀ c y, ed t' c y = if c = right ∧ In m lo y then (rhs y, rhs y) else if c = left ∧ In m lo y then (y, y)
        else ed t c y := by
  intro m
  induction m with
  | zero =>
    intro _
    refine ⟨t, rfl, ht, ?_⟩
    intro c y
    rw [if_neg (by unfold In; omega), if_neg (by unfold In; omega)]
  | succ m ih =>
    intro hm
    obtain ⟨t1, e1, s1, c1⟩ := ih (by omega)
    have hv' : dests[lo + m - lo]? = some (rhs (lo + m)) := by
      rw [show lo + m - lo = m by omega]; exact hv m (by omega)
    obtain ⟨t2, e2, s2, c2⟩ := straightRow_spec s1 hl hr (x := lo + m) (by omega) hv'
    refine ⟨t2, ?_, s2, ?_⟩
    · rw [List.range'_concat, List.foldlM_append, e1]
      simp [e2]
    · intro c y
      rw [c2]
      by_cases hy : y = lo + m
      · subst hy
        by_cases h1 : c = right
        · rw [if_pos ⟨h1, rfl⟩, if_pos ⟨h1, by unfold In; omega⟩]
        · rw [if_neg (fun h => h1 h.1), if_neg (c := c = right ∧ _) (fun h => h1 h.1)]
          by_cases h2 : c = left
          · rw [if_pos ⟨h2, rfl⟩, if_pos ⟨h2, by unfold In; omega⟩]
          · rw [if_neg (fun h => h2 h.1), if_neg (c := c = left ∧ _) (fun h => h2 h.1), c1, if_neg (fun h => h1 h.1),
              if_neg (fun h => h2 h.1)]
      · rw [if_neg (fun h => hy h.2), if_neg (fun h => hy h.2), c1]
        have : In (m + 1) lo y ↔ In m lo y := by unfold In; omega
        simp only [this]

theorem switchRow_spec {cols rows : Nat} {t : AsWaksmanTopology} (ht : ShapeT cols rows t) {left right lo n i : Nat}
    (hl : left < cols) (hr : right < cols) (hlr : left ≠ right) (hn : lo + n ≤ rows) (hi : 2 * i + 1 < n)
    {dests new : List Nat} {v v' : Nat} (hv : dests[2 * i]? = some v) (hv' : dests[2 * i + 1]? = some v')
    (hnew : new.length = n) :
    ∃ t', awSwitchRow left right lo n dests (t, new) (lo + 2 * i) =
        some (t', (new.set i (lo + 2 * i)).set (i + n / 2) (lo + 2 * i + 1)) ∧ ShapeT cols rows t' ∧
      (∀ c y, ¬ ((c = left ∨ c = right) ∧ (y = lo + 2 * i ∨ y = lo + 2 * i + 1)) → ed t' c y = ed t c y) ∧
      ed t' left (lo + 2 * i) = (lo + i, lo + i + n / 2) ∧ ed t' left (lo + 2 * i + 1) = (lo + i + n / 2, lo + i) ∧
      ed t' right (lo + 2 * i) = (v, v') ∧ ed t' right (lo + 2 * i + 1) = (v', v) := by
  have hx : lo + 2 * i < rows := by omega
  have hx' : lo + 2 * i + 1 < rows := by omega
  have o1 : awSwitchOutput n lo (lo + 2 * i) true = some (lo + i) := by
    unfold awSwitchOutput
    simp only
    rw [if_pos (by omega)]
    simp
  have o2 : awSwitchOutput n lo (lo + 2 * i) false = some (lo + i + n / 2) := by
    unfold awSwitchOutput awTopHeight
    simp only
    rw [if_pos (by omega)]
    simp
  obtain ⟨t1, e1, s1, c1⟩ := setSecond_spec ht hl hx' (lo + i)
  obtain ⟨t2, e2, s2, c2⟩ := setFirst_spec s1 hl hx (lo + i)
  obtain ⟨t3, e3, s3, c3⟩ := setFirst_spec s2 hl hx' (lo + i + n / 2)
  obtain ⟨t4, e4, s4, c4⟩ := setSecond_spec s3 hl hx (lo + i + n / 2)
  obtain ⟨t5, e5, s5, c5⟩ := setSecond_spec s4 hr hx' v
  obtain ⟨t6, e6, s6, c6⟩ := setFirst_spec s5 hr hx v
  obtain ⟨t7, e7, s7, c7⟩ := setFirst_spec s6 hr hx' v'
  obtain ⟨t8, e8, s8, c8⟩ := setSecond_spec s7 hr hx v'
  have d1 : awSetDest new (lo + i - lo) (lo + 2 * i) = some (new.set i (lo + 2 * i)) := by
    rw [show lo + i - lo = i by omega, awSetDest, if_pos (by omega)]
  have d2 : awSetDest (new.set i (lo + 2 * i)) (lo + i + n / 2 - lo) (lo + 2 * i + 1) =
      some ((new.set i (lo + 2 * i)).set (i + n / 2) (lo + 2 * i + 1)) := by
    rw [show lo + i + n / 2 - lo = i + n / 2 by omega, awSetDest, if_pos (by simp; omega)]
  have hv1 : dests[lo + 2 * i - lo]? = some v := by rw [show lo + 2 * i - lo = 2 * i by omega]; exact hv
  have hv2 : dests[lo + 2 * i + 1 - lo]? = some v' := by
    rw [show lo + 2 * i + 1 - lo = 2 * i + 1 by omega]; exact hv'
  refine ⟨t8, ?_, s8, ?_, ?_, ?_, ?_, ?_⟩
  · simp only [awSwitchRow, o1, o2, e1, e2, e3, e4, awSwitchInput, d1, d2, hv1, hv2, e5, e6, e7, e8,
      Option.bind_eq_bind, Option.bind_some, Option.pure_def]
  · intro c y h
    have h1 : ¬ (c = left ∧ y = lo + 2 * i) := fun h' => h ⟨Or.inl h'.1, Or.inl h'.2⟩
    have h2 : ¬ (c = left ∧ y = lo + 2 * i + 1) := fun h' => h ⟨Or.inl h'.1, Or.inr h'.2⟩
    have h3 : ¬ (c = right ∧ y = lo + 2 * i) := fun h' => h ⟨Or.inr h'.1, Or.inl h'.2⟩
    have h4 : ¬ (c = right ∧ y = lo + 2 * i + 1) := fun h' => h ⟨Or.inr h'.1, Or.inr h'.2⟩
    rw [c8, if_neg h3, c7, if_neg h4, c6, if_neg h3, c5, if_neg h4, c4, if_neg h1, c3, if_neg h2, c2, if_neg h1, c1,
      if_neg h2]
  · simp [c8, c7, c6, c5, c4, c3, c2, c1, hlr]
  · simp [c8, c7, c6, c5, c4, c3, c2, c1, hlr]
  · simp [c8, c7, c6, c5, c4, c3, c2, c1, Ne.symm hlr]
  · simp [c8, c7, c6, c5, c4, c3, c2, c1, Ne.symm hlr]

theorem switchRows_spec {cols rows : Nat} {t : AsWaksmanTopology} (ht : ShapeT cols rows t) {left right lo n : Nat}
    (hl : left < cols) (hr : right < cols) (hlr : left ≠ right) (hn : lo + n ≤ rows)
    {dests : List Nat} {rhs : Nat → Nat} (hv : ∀ i < n, dests[i]? = some (rhs (lo + i))) (new : List Nat)
    (hnew : new.length = n) : ∀ m, 2 * m ≤ n →
    ∃ t' new', ((List.range m).map fun i => lo + 2 * i).foldlM (awSwitchRow left right lo n dests) (t, new) =
        some (t', new') ∧ ShapeT cols rows t' ∧ new'.length = n ∧
      (∀ c y, ¬ ((c = left ∨ c = right) ∧ In (2 * m) lo y) → ed t' c y = ed t c y) ∧
      (∀ i < m, ed t' left (lo + 2 * i) = (lo + i, lo + i + n / 2) ∧
        ed t' left (lo + 2 * i + 1) = (lo + i + n / 2, lo + i) ∧
        ed t' right (lo + 2 * i) = (rhs (lo + 2 * i), rhs (lo + 2 * i + 1)) ∧
        ed t' right (lo + 2 * i + 1) = (rhs (lo + 2 * i + 1), rhs (lo + 2 * i)) ∧
        new'[i]? = some (lo + 2 * i) ∧ new'[i + n / 2]? = some (lo + 2 * i + 1)) := by
  intro m
  induction m with
  | zero =>
    intro _
    exact ⟨t, new, rfl, ht, hnew, fun _ _ _ => rfl, by simp⟩
  | succ m ih =>
    intro hm
    obtain ⟨t1, n1, e1, s1, l1, f1, c1⟩ := ih (by omega)
    obtain ⟨t2, e2, s2, f2, g1, g2, g3, g4⟩ := switchRow_spec s1 hl hr hlr hn (i := m) (by omega) (hv (2 * m) (by omega))
      (hv (2 * m + 1) (by omega)) l1
    refine ⟨t2, (n1.set m (lo + 2 * m)).set (m + n / 2) (lo + 2 * m + 1), ?_, s2, by simp [l1], ?_, ?_⟩
    · rw [List.range_succ, List.map_append, List.foldlM_append, e1]
      simp only [Option.bind_eq_bind, Option.bind_some, List.map_cons, List.map_nil, List.foldlM_cons, List.foldlM_nil, e2,
        Option.pure_def]
    · intro c y h
      rw [f2 c y (by
        rintro ⟨h1, h2⟩
        exact h ⟨h1, by unfold In; omega⟩), f1 c y (by
        rintro ⟨h1, h2⟩
        exact h ⟨h1, by unfold In at *; omega⟩)]
    · intro i hi
      rcases Nat.lt_succ_iff_lt_or_eq.1 hi with hlt | rfl
      · obtain ⟨a1, a2, a3, a4, a5, a6⟩ := c1 i hlt
        refine ⟨?_, ?_, ?_, ?_, ?_, ?_⟩
        · rw [f2 _ _ (by omega)]; exact a1
        · rw [f2 _ _ (by omega)]; exact a2
        · rw [f2 _ _ (by omega)]; exact a3
        · rw [f2 _ _ (by omega)]; exact a4
        · rw [List.getElem?_set_ne (by omega), List.getElem?_set_ne (by omega)]; exact a5
        · rw [List.getElem?_set_ne (by omega), List.getElem?_set_ne (by omega)]; exact a6
      · refine ⟨g1, g2, g3, g4, ?_, ?_⟩
        · rw [List.getElem?_set_ne (by omega), List.getElem?_set_self (by omega)]
        · rw [List.getElem?_set_self (by simp; omega)]

/-! ## the whole topology -/

/-- the left column of a network of `n > 2` packets -/
def leftEdge (n lo x : Nat) : Nat × Nat :=
  if Straight n lo x then (x, x)
  else if n % 2 = 0 ∧ lo + n - 2 ≤ x then (out n lo (x == canon lo x) x, out n lo (x == canon lo x) x)
  else (out n lo (x == canon lo x) x, out n lo (x != canon lo x) x)

/-- the right column -/
def rightEdge (n lo : Nat) (rhs : Nat → Nat) (x : Nat) : Nat × Nat :=
  if Straight n lo x then (rhs x, rhs x) else (rhs x, rhs (other lo x))

/-- the network on `2 * k + 1` columns from `left`, for `n ≤ 2^(k+1)` packets from row `lo` -/
def TopoNet (t : AsWaksmanTopology) : Nat → Nat → Nat → Nat → (Nat → Nat) → Prop
  | 0, left, lo, n, rhs =>
    if n = 1 then ed t left lo = (rhs lo, rhs lo)
    else ed t left lo = (rhs lo, rhs (lo + 1)) ∧ ed t left (lo + 1) = (rhs (lo + 1), rhs lo)
  | k + 1, left, lo, n, rhs =>
    if n ≤ 2 ^ (k + 1) then
      (∀ x, In n lo x → ed t left x = (x, x) ∧ ed t (left + 2 * (k + 1)) x = (rhs x, rhs x)) ∧
        TopoNet t k (left + 1) lo n id
    else
      (∀ x, In n lo x → ed t left x = leftEdge n lo x ∧ ed t (left + 2 * (k + 1)) x = rightEdge n lo rhs x) ∧
        TopoNet t k (left + 1) lo (n / 2) (innerDest n lo) ∧
        TopoNet t k (left + 1) (lo + n / 2) (n - n / 2) (innerDest n lo)

theorem TopoNet.congr {t t' : AsWaksmanTopology} : ∀ {k left lo n : Nat} {rhs : Nat → Nat}, 1 ≤ n → n ≤ 2 ^ (k + 1) →
    TopoNet t k left lo n rhs →
    (∀ c y, left ≤ c → c ≤ left + 2 * k → In n lo y → ed t' c y = ed t c y) → TopoNet t' k left lo n rhs
  | 0, left, lo, n, rhs, h1, h2, h, he => by
    unfold TopoNet at h ⊢
    have e0 := he left lo (by omega) (by omega) (by unfold In; omega)
    split
    · rename_i hn
      rw [if_pos hn] at h
      rw [e0]; exact h
    · rename_i hn
      rw [if_neg hn] at h
      rw [e0, he left (lo + 1) (by omega) (by omega) (by unfold In; omega)]
      exact h
  | k + 1, left, lo, n, rhs, h1, h2, h, he => by
    have hp : 2 ^ (k + 1 + 1) = 2 * 2 ^ (k + 1) := by rw [pow_succ]; omega
    unfold TopoNet at h ⊢
    split
    · rename_i hn
      rw [if_pos hn] at h
      refine ⟨fun x hx => ?_, h.2.congr h1 hn fun c y hc1 hc2 hy => he c y (by omega) (by omega) hy⟩
      rw [he _ x (by omega) (by omega) hx, he _ x (by omega) (by omega) hx]
      exact h.1 x hx
    · rename_i hn
      rw [if_neg hn] at h
      have hp1 : 2 ≤ 2 ^ (k + 1) := Nat.le_self_pow (by omega) 2
      refine ⟨fun x hx => ?_, h.2.1.congr (by omega) (by omega) fun c y hc1 hc2 hy => he c y (by omega) (by omega) (by
        unfold In at *; omega), h.2.2.congr (by omega) (by omega) fun c y hc1 hc2 hy => he c y (by omega) (by omega) (by
        unfold In at *; omega)⟩
      rw [he _ x (by omega) (by omega) hx, he _ x (by omega) (by omega) hx]
      exact h.1 x hx

theorem numColumns_one : awNumColumns 1 = 0 := by simp [awNumColumns]

theorem numColumns_le {n k : Nat} (h : n ≤ 2 ^ (k + 1)) : awNumColumns n ≤ 2 * k + 1 := by
  unfold awNumColumns
  split
  · have := (Nat.clog_le_iff_le_pow (b := 2) (by omega) (x := n) (y := k + 1)).2 h
    omega
  · omega

theorem numColumns_lt {n k : Nat} (h : n ≤ 2 ^ k) : awNumColumns n < 2 * k + 1 := by
  unfold awNumColumns
  split
  · have := (Nat.clog_le_iff_le_pow (b := 2) (by omega) (x := n) (y := k)).2 h
    omega
  · omega

theorem numColumns_eq {n k : Nat} (h : n ≤ 2 ^ (k + 1)) (h' : 2 ^ k < n) : awNumColumns n = 2 * k + 1 := by
  have := Nat.two_pow_pos k
  unfold awNumColumns
  rw [if_pos (by omega)]
  have h1 := (Nat.clog_le_iff_le_pow (b := 2) (by omega) (x := n) (y := k + 1)).2 h
  have h2 : ¬ Nat.clog 2 n ≤ k := fun hc => by
    have := (Nat.clog_le_iff_le_pow (b := 2) (by omega) (x := n) (y := k)).1 hc
    omega
  omega

theorem construct_spec {cols rows : Nat} : ∀ (k fuel left lo n : Nat) (rhs : Nat → Nat) (dests : List Nat)
    (t : AsWaksmanTopology), 1 ≤ n → n ≤ 2 ^ (k + 1) → k + 2 ≤ fuel → ShapeT cols rows t → left + 2 * k < cols →
    lo + n ≤ rows → dests.length = n → (∀ i < n, dests[i]? = some (rhs (lo + i))) → (n = 1 → 0 < left + k) →
    ∃ t', awConstruct fuel left (left + 2 * k) lo (lo + n - 1) dests t = some t' ∧ ShapeT cols rows t' ∧
      TopoNet t' k left lo n rhs ∧
      ∀ c y, ¬ (left ≤ c ∧ c ≤ left + 2 * k ∧ In n lo y) → ed t' c y = ed t c y
  | 0, 0, _, _, _, _, _, _, _, _, hf, _, _, _, _, _, _ => by omega
  | 0, 1, _, _, _, _, _, _, _, _, hf, _, _, _, _, _, _ => by omega
  | 0, fuel + 2, left, lo, n, rhs, dests, t, h1, h2, hf, ht, hc, hr, hd, hv, h0 => by
    have hsize : lo + n - 1 - lo + 1 = n := by omega
    by_cases hn : n = 1
    · subst hn
      obtain ⟨t1, e1, s1, c1⟩ := straightRows_spec ht (left := left) (right := left) (by omega) (by omega) hr hv 1
        (le_refl _)
      refine ⟨t1, ?_, s1, ?_, ?_⟩
      · rw [awConstruct, if_neg (by omega)]
        simp only [Nat.mul_zero, Nat.add_zero, Nat.add_sub_cancel, Nat.sub_self, Nat.zero_add, hd, numColumns_one, guard,
          if_true, Nat.zero_le, gt_iff_lt, Nat.lt_one_iff, pos_of_gt, Option.bind_eq_bind, Option.bind_some, e1,
          Option.pure_def, Nat.one_pos]
        rw [if_pos (by have := h0 rfl; omega), Option.bind_some, awConstruct, if_pos (by omega)]
      · unfold TopoNet
        rw [if_pos rfl, c1, if_pos ⟨rfl, by unfold In; omega⟩]
      · intro c y h
        rw [c1, if_neg (by rintro ⟨rfl, h'⟩; exact h ⟨by omega, by omega, h'⟩),
          if_neg (by rintro ⟨rfl, h'⟩; exact h ⟨by omega, by omega, h'⟩)]
    · have hn2 : n = 2 := by simp at h2; omega
      subst hn2
      have hw : awNumColumns 2 = 1 := numColumns_eq (k := 0) (by omega) (by omega)
      have v0 := hv 0 (by omega)
      have v1 := hv 1 (by omega)
      obtain ⟨t1, e1, s1, c1⟩ := setSecond_spec ht (c := left) (x := lo + 1) (by omega) (by omega) (rhs lo)
      obtain ⟨t2, e2, s2, c2⟩ := setFirst_spec s1 (c := left) (x := lo) (by omega) (by omega) (rhs lo)
      obtain ⟨t3, e3, s3, c3⟩ := setFirst_spec s2 (c := left) (x := lo + 1) (by omega) (by omega) (rhs (lo + 1))
      obtain ⟨t4, e4, s4, c4⟩ := setSecond_spec s3 (c := left) (x := lo) (by omega) (by omega) (rhs (lo + 1))
      refine ⟨t4, ?_, s4, ?_, ?_⟩
      · rw [awConstruct, if_neg (by omega)]
        have e : lo + 2 - 1 = lo + 1 := by omega
        have e' : lo + 1 - lo + 1 = 2 := by omega
        simp only [Nat.mul_zero, Nat.add_zero, e, e', hd, hw, guard, Nat.sub_self, Nat.zero_add, if_true, le_refl,
          gt_iff_lt, lt_irrefl, if_false, Option.bind_eq_bind, Option.bind_some, Option.pure_def, v0, v1, e1, e2, e3, e4]
      · unfold TopoNet
        rw [if_neg (by omega)]
        simp [c4, c3, c2, c1]
      · intro c y h
        have h1 : ¬ (c = left ∧ y = lo) := by rintro ⟨rfl, rfl⟩; exact h ⟨by omega, by omega, by unfold In; omega⟩
        have h2 : ¬ (c = left ∧ y = lo + 1) := by rintro ⟨rfl, rfl⟩; exact h ⟨by omega, by omega, by unfold In; omega⟩
        rw [c4, if_neg h1, c3, if_neg h2, c2, if_neg h1, c1, if_neg h2]
  | k + 1, 0, _, _, _, _, _, _, _, _, hf, _, _, _, _, _, _ => by omega
  | k + 1, fuel + 1, left, lo, n, rhs, dests, t, h1, h2, hf, ht, hc, hr, hd, hv, h0 => by
    have hsize : lo + n - 1 - lo + 1 = n := by omega
    have hcols : left + 2 * (k + 1) - left + 1 = 2 * (k + 1) + 1 := by omega
    have hright : left + 2 * (k + 1) - 1 = left + 1 + 2 * k := by omega
    have hpos : 0 < left + 2 * (k + 1) := by omega
    have hle := numColumns_le h2
    by_cases hn : n ≤ 2 ^ (k + 1)
    · have hlt := numColumns_lt hn
      obtain ⟨t1, e1, s1, c1⟩ := straightRows_spec ht (left := left) (right := left + 2 * (k + 1)) (by omega) hc hr hv n
        (le_refl _)
      obtain ⟨t2, e2, s2, n2, f2⟩ := construct_spec k fuel (left + 1) lo n id (List.range' lo n) t1 h1 hn (by omega) s1
        (by omega) hr (by simp) (by intro i hi; simp [hi]) (by omega)
      refine ⟨t2, ?_, s2, ?_, ?_⟩
      · rw [awConstruct, if_neg (by omega)]
        simp only [hsize, hd, hcols, guard, if_true, hle, hlt, gt_iff_lt, Option.bind_eq_bind, Option.bind_some,
          Option.pure_def, e1, hpos, hright]
        exact e2
      · unfold TopoNet
        rw [if_pos hn]
        refine ⟨fun x hx => ?_, n2⟩
        rw [f2 left x (by omega), f2 (left + 2 * (k + 1)) x (by omega), c1, c1, if_neg (by omega), if_pos ⟨rfl, hx⟩,
          if_pos ⟨rfl, hx⟩]
        exact ⟨rfl, rfl⟩
      · intro c y h
        rw [f2 c y (fun h' => h ⟨by omega, by omega, h'.2.2⟩), c1,
          if_neg (by rintro ⟨rfl, h'⟩; exact h ⟨by omega, by omega, h'⟩),
          if_neg (by rintro ⟨rfl, h'⟩; exact h ⟨by omega, by omega, h'⟩)]
    · have heq := numColumns_eq h2 (by omega : 2 ^ (k + 1) < n)
      have hp1 : 2 ≤ 2 ^ (k + 1) := Nat.le_self_pow (by omega) 2
      have hp : 2 ^ (k + 1 + 1) = 2 * 2 ^ (k + 1) := by rw [pow_succ]; omega
      obtain ⟨t1, n1, e1, s1, l1, f1, c1⟩ := switchRows_spec ht (left := left) (right := left + 2 * (k + 1)) (by omega) hc
        (by omega) hr hv (List.replicate n (2 ^ 64 - 1)) (by simp) (n / 2) (by omega)
      have hrows : ((if n % 2 = 1 then lo + n - 1 else lo + n - 1 + 1) - lo + 1) / 2 = n / 2 := by
        split <;> omega
      -- the last row
      obtain ⟨t2, n2, e2, s2, l2, f2, c2, d2⟩ : ∃ t2 n2, awLastRow left (left + 2 * (k + 1)) lo (lo + n - 1) n dests t1 n1 =
          some (t2, n2) ∧ ShapeT cols rows t2 ∧ n2.length = n ∧
          (∀ c y, ¬ ((c = left ∨ c = left + 2 * (k + 1)) ∧ In n lo y) → ed t2 c y = ed t c y) ∧
          (∀ x, In n lo x → ed t2 left x = leftEdge n lo x ∧ ed t2 (left + 2 * (k + 1)) x = rightEdge n lo rhs x) ∧
          (∀ i < n, n2[i]? = some (innerDest n lo (lo + i))) := by
        have hhi : lo + n - 1 < rows := by omega
        have edges : ∀ x, In (2 * (n / 2)) lo x →
            ed t1 left x = (out n lo (x == canon lo x) x, out n lo (x != canon lo x) x) ∧
            ed t1 (left + 2 * (k + 1)) x = (rhs x, rhs (other lo x)) := by
          intro x hx
          unfold In at hx
          obtain ⟨a1, a2, a3, a4, -, -⟩ := c1 ((x - lo) / 2) (by omega)
          have hd1 : (x - lo) / 2 = (x - lo) / 2 := rfl
          by_cases hpar : (x - lo) % 2 = 0
          · have ex : lo + 2 * ((x - lo) / 2) = x := by omega
            rw [ex] at a1 a3
            have hcx : canon lo x = x := ex
            have hox : other lo x = x + 1 := by rw [other, if_pos hpar]
            rw [a1, a3, hcx, hox]
            simp [out]
          · have ex : lo + 2 * ((x - lo) / 2) + 1 = x := by omega
            have ex' : lo + 2 * ((x - lo) / 2) = x - 1 := by omega
            rw [ex, ] at a2 a4
            rw [ex'] at a4
            have hcx : canon lo x = x - 1 := ex'
            have hox : other lo x = x - 1 := by rw [other, if_neg hpar]
            have hne : x ≠ x - 1 := by omega
            rw [a2, a4, hcx, hox]
            simp [out, hne]
        have dest : ∀ i, i < 2 * (n / 2) → n1[i]? = some (innerDest n lo (lo + i)) := by
          intro i hi
          unfold innerDest
          by_cases hlt : i < n / 2
          · rw [if_pos (by omega), (c1 i hlt).2.2.2.2.1, show lo + i - lo = i by omega]
          · have := (c1 (i - n / 2) (by omega)).2.2.2.2.2
            rw [show i - n / 2 + n / 2 = i by omega] at this
            rw [if_neg (by omega), if_pos (by omega), this, show lo + i - lo - n / 2 = i - n / 2 by omega]
        by_cases hodd : n % 2 = 1
        · have hvl : dests[lo + n - 1 - lo]? = some (rhs (lo + n - 1)) := by
            have := hv (n - 1) (by omega)
            rwa [show lo + (n - 1) = lo + n - 1 by omega, show n - 1 = lo + n - 1 - lo by omega] at this
          obtain ⟨u1, g1, p1, q1⟩ := setSecond_spec s1 (c := left) (by omega) hhi (lo + n - 1)
          obtain ⟨u2, g2, p2, q2⟩ := setFirst_spec p1 (c := left) (by omega) hhi (lo + n - 1)
          obtain ⟨u3, g3, p3, q3⟩ := setSecond_spec p2 hc hhi (rhs (lo + n - 1))
          obtain ⟨u4, g4, p4, q4⟩ := setFirst_spec p3 hc hhi (rhs (lo + n - 1))
          have hdst : awSetDest n1 (lo + n - 1 - lo) (lo + n - 1) = some (n1.set (n - 1) (lo + n - 1)) := by
            rw [awSetDest, if_pos (by omega), show lo + n - 1 - lo = n - 1 by omega]
          have hfr : ∀ c y, y ≠ lo + n - 1 → ed u4 c y = ed t1 c y := by
            intro c y hy
            rw [q4, if_neg (fun h => hy h.2), q3, if_neg (fun h => hy h.2), q2, if_neg (fun h => hy h.2), q1,
              if_neg (fun h => hy h.2)]
          refine ⟨u4, n1.set (n - 1) (lo + n - 1), ?_, p4, by simp [l1], ?_, ?_, ?_⟩
          · rw [awLastRow, if_pos hodd]
            simp only [g1, g2, g3, g4, hvl, hdst, Option.bind_eq_bind, Option.bind_some, Option.pure_def]
          · intro c y h
            by_cases hy : y = lo + n - 1
            · have hin : In n lo y := by unfold In; omega
              have hcl : c ≠ left := fun e => h ⟨Or.inl e, hin⟩
              have hcr : c ≠ left + 2 * (k + 1) := fun e => h ⟨Or.inr e, hin⟩
              rw [q4, if_neg (fun h => hcr h.1), q3, if_neg (fun h => hcr h.1), q2, if_neg (fun h => hcl h.1), q1,
                if_neg (fun h => hcl h.1)]
              exact f1 c y (by rintro ⟨h1 | h1, -⟩; exact hcl h1; exact hcr h1)
            · rw [hfr c y hy]
              exact f1 c y (by rintro ⟨h1, h2⟩; exact h ⟨h1, by unfold In at *; omega⟩)
          · intro x hx
            by_cases hxs : x = lo + n - 1
            · subst hxs
              rw [leftEdge, rightEdge, if_pos ⟨hodd, rfl⟩, if_pos ⟨hodd, rfl⟩]
              have hne : left ≠ left + 2 * (k + 1) := by omega
              constructor
              · rw [q4, if_neg (fun h => hne h.1), q3, if_neg (fun h => hne h.1), q2, if_pos ⟨rfl, rfl⟩, q1,
                  if_pos ⟨rfl, rfl⟩]
              · rw [q4, if_pos ⟨rfl, rfl⟩, q3, if_pos ⟨rfl, rfl⟩]
            · have hns : ¬ Straight n lo x := fun h => hxs h.2
              rw [leftEdge, rightEdge, if_neg hns, if_neg hns, if_neg (by omega), hfr _ _ hxs, hfr _ _ hxs]
              exact edges x (by unfold In at *; omega)
          · intro i hi
            by_cases hin : i = n - 1
            · subst hin
              rw [List.getElem?_set_self (by omega), innerDest, if_neg (by omega), if_neg (by omega)]
              congr 1; omega
            · rw [List.getElem?_set_ne (by omega)]
              exact dest i (by omega)
        · have hlast : ed t1 left (lo + n - 1 - 1) = (out n lo true (lo + n - 2), out n lo false (lo + n - 2)) := by
            have := (edges (lo + n - 2) (by unfold In; omega)).1
            have hcx : canon lo (lo + n - 2) = lo + n - 2 := by unfold canon; omega
            rw [hcx] at this
            rw [show lo + n - 1 - 1 = lo + n - 2 by omega, this]
            simp
          have hlast' : ed t1 left (lo + n - 1) = (out n lo false (lo + n - 1), out n lo true (lo + n - 1)) := by
            have := (edges (lo + n - 1) (by unfold In; omega)).1
            have hcx : canon lo (lo + n - 1) = lo + n - 2 := by unfold canon; omega
            rw [hcx] at this
            have hne : (lo + n - 1 == lo + n - 2) = false := by rw [beq_eq_false_iff_ne]; omega
            rw [this, bne, hne]
            rfl
          have hfst := first_spec s1 (c := left) (x := lo + n - 1 - 1) (by omega) (by omega)
          rw [hlast] at hfst
          obtain ⟨u1, g1, p1, q1⟩ := setSecond_spec s1 (c := left) (x := lo + n - 1 - 1) (by omega) (by omega)
            (out n lo true (lo + n - 2))
          have hfst' := first_spec p1 (c := left) (x := lo + n - 1) (by omega) hhi
          rw [q1, if_neg (by omega), hlast'] at hfst'
          obtain ⟨u2, g2, p2, q2⟩ := setSecond_spec p1 (c := left) (by omega) hhi (out n lo false (lo + n - 1))
          refine ⟨u2, n1, ?_, p2, l1, ?_, ?_, ?_⟩
          · rw [awLastRow, if_neg hodd]
            simp only [hfst, g1, hfst', g2, Option.bind_eq_bind, Option.bind_some, Option.pure_def]
          · intro c y h
            have h1 : ¬ (c = left ∧ y = lo + n - 1) := by
              rintro ⟨rfl, rfl⟩; exact h ⟨Or.inl rfl, by unfold In; omega⟩
            have h2 : ¬ (c = left ∧ y = lo + n - 1 - 1) := by
              rintro ⟨rfl, rfl⟩; exact h ⟨Or.inl rfl, by unfold In; omega⟩
            rw [q2, if_neg h1, q1, if_neg h2]
            exact f1 c y (by rintro ⟨h1, h2⟩; exact h ⟨h1, by unfold In at *; omega⟩)
          · intro x hx
            have hns : ¬ Straight n lo x := fun h => hodd h.1
            obtain ⟨g5, g6⟩ := edges x (by unfold In at *; omega)
            rw [leftEdge, rightEdge, if_neg hns, if_neg hns]
            constructor
            · by_cases hx1 : x = lo + n - 1
              · subst hx1
                have hcx : canon lo (lo + n - 1) = lo + n - 2 := by unfold canon; omega
                have hne : (lo + n - 1 == lo + n - 2) = false := by rw [beq_eq_false_iff_ne]; omega
                rw [if_pos (by omega), q2, if_pos ⟨rfl, rfl⟩, q1, if_neg (by omega), hlast', hcx, hne]
              · by_cases hx2 : x = lo + n - 1 - 1
                · subst hx2
                  have hcx : canon lo (lo + n - 1 - 1) = lo + n - 1 - 1 := by unfold canon; omega
                  rw [if_pos (by omega), q2, if_neg (by omega), q1, if_pos ⟨rfl, rfl⟩, hlast, hcx]
                  simp [show lo + n - 2 = lo + n - 1 - 1 by omega]
                · rw [if_neg (by unfold In at hx; omega), q2, if_neg (fun h => hx1 h.2), q1, if_neg (fun h => hx2 h.2)]
                  exact g5
            · rw [q2, if_neg (by omega), q1, if_neg (by omega)]
              exact g6
          · intro i hi
            exact dest i (by omega)
      have hinner : lo + n / 2 + (n - n / 2) - 1 = lo + n - 1 := by omega
      obtain ⟨t3, e3, s3, n3, f3⟩ := construct_spec k fuel (left + 1) lo (n / 2) (innerDest n lo) (n2.take (n / 2)) t2
        (by omega) (by omega) (by omega) s2 (by omega) (by omega) (by simp [l2]; omega) (by
          intro i hi
          rw [List.getElem?_take_of_lt hi]
          exact d2 i (by omega)) (by omega)
      obtain ⟨t4, e4, s4, n4, f4⟩ := construct_spec k fuel (left + 1) (lo + n / 2) (n - n / 2) (innerDest n lo)
        (n2.drop (n / 2)) t3 (by omega) (by omega) (by omega) s3 (by omega) (by omega) (by simp [l2]) (by
          intro i hi
          rw [List.getElem?_drop, d2 (n / 2 + i) (by omega), Nat.add_assoc]) (by omega)
      refine ⟨t4, ?_, s4, ?_, ?_⟩
      · rw [awConstruct, if_neg (by omega)]
        have hn2 : ¬ n = 2 := by omega
        rw [hinner] at e4
        simp only [hsize, hd, hcols, guard, if_true, hle, heq, gt_iff_lt, lt_irrefl, if_false, hn2, hrows,
          Option.bind_eq_bind, Option.bind_some, Option.pure_def, e1, e2, awTopHeight, hpos, hright, e3, le_refl]
        exact e4
      · unfold TopoNet
        rw [if_neg hn]
        refine ⟨fun x hx => ?_, ?_, n4⟩
        · rw [f4 left x (by omega), f4 (left + 2 * (k + 1)) x (by omega), f3 left x (by omega),
            f3 (left + 2 * (k + 1)) x (by omega)]
          exact c2 x hx
        · exact n3.congr (by omega) (by omega) fun c y _ _ hy => f4 c y (by unfold In at *; omega)
      · intro c y h
        rw [f4 c y (by unfold In at *; omega), f3 c y (by unfold In at *; omega), f2 c y (by unfold In at *; omega)]

end Crypto3Zk.Waksman
