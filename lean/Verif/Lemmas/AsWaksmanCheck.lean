import Verif.Lemmas.AsWaksmanRoute
import Verif.Spec.AsWaksman
import Mathlib.Data.Finset.Image

/-! # The AS-Waksman topology as a network of switches, and the checker -/

namespace Crypto3Zk.Waksman

open Benes (In BPerm)

set_option linter.unusedSectionVars false

/-! ## the columns of the topology -/

/-- a column between two rows, seen from its entries -/
structure ColumnOK (t : AsWaksmanTopology) (c lo n : Nat) : Prop where
  switch : ∀ x, In n lo x → (ed t c x).1 = (ed t c x).2 ∨
    ∃ y, In n lo y ∧ (y = x + 1 ∨ y + 1 = x) ∧ ed t c y = ((ed t c x).2, (ed t c x).1)

theorem innerDest_in {n lo x : Nat} (h3 : 3 ≤ n) (hx : In n lo x) : In n lo (innerDest n lo x) := by
  unfold In innerDest at *
  split_ifs <;> omega

theorem innerDest_inj {n lo x y : Nat} (h3 : 3 ≤ n) (hx : In n lo x) (hy : In n lo y)
    (h : innerDest n lo x = innerDest n lo y) : x = y := by
  unfold In innerDest at *
  split_ifs at h <;> omega

theorem canon_or {lo x : Nat} (hx : lo ≤ x) : (x = canon lo x ∧ other lo x = x + 1) ∨
    (x ≠ canon lo x ∧ other lo x + 1 = x) := by
  unfold canon other
  split <;> omega

theorem canon_other_iff {lo x : Nat} (hx : lo ≤ x) : (other lo x == canon lo (other lo x)) = !(x == canon lo x) := by
  rw [canon_other hx]
  have h1 := canon_or hx
  by_cases h : x = canon lo x
  · have : other lo x ≠ canon lo x := by omega
    rw [beq_eq_false_iff_ne.2 this, beq_iff_eq.2 h]
    rfl
  · have : other lo x = canon lo x := by unfold canon other at *; split <;> omega
    rw [beq_iff_eq.2 this, beq_eq_false_iff_ne.2 h]
    rfl

theorem net_columns {t : AsWaksmanTopology} : ∀ (k left lo n : Nat) (rhs : Nat → Nat), 1 ≤ n → n ≤ 2 ^ (k + 1) →
    TopoNet t k left lo n rhs →
    (∀ x, In n lo x → (ed t (left + 2 * k) x).1 = rhs x) ∧
    (∀ c, left ≤ c → c < left + 2 * k → (∀ x, In n lo x → In n lo (ed t c x).1) ∧
      ∀ x y, In n lo x → In n lo y → (ed t c x).1 = (ed t c y).1 → x = y) ∧
    (∀ c, left ≤ c → c ≤ left + 2 * k → ColumnOK t c lo n)
  | 0, left, lo, n, rhs, h1, h2, hT => by
    unfold TopoNet at hT
    by_cases hn : n = 1
    · rw [if_pos hn] at hT
      have hx : ∀ x, In n lo x → x = lo := by intro x hx; unfold In at hx; omega
      refine ⟨?_, by intro c h1 h2; omega, ?_⟩
      · intro x hx'
        rw [hx x hx', Nat.mul_zero, Nat.add_zero, hT]
      · intro c h1 h2
        refine ⟨fun x hx' => Or.inl ?_⟩
        rw [hx x hx', show c = left by omega, hT]
    · rw [if_neg hn] at hT
      obtain ⟨e1, e2⟩ := hT
      have hn2 : n = 2 := by simp at h2; omega
      have hx : ∀ x, In n lo x → x = lo ∨ x = lo + 1 := by intro x hx; unfold In at hx; omega
      refine ⟨?_, by intro c h1 h2; omega, ?_⟩
      · intro x hx'
        rw [Nat.mul_zero, Nat.add_zero]
        rcases hx x hx' with rfl | rfl
        · rw [e1]
        · rw [e2]
      · intro c h1 h2
        have hc : c = left := by omega
        subst hc
        refine ⟨fun x hx' => Or.inr ?_⟩
        rcases hx x hx' with rfl | rfl
        · exact ⟨x + 1, by unfold In; omega, Or.inl rfl, by rw [e1, e2]⟩
        · exact ⟨lo, by unfold In; omega, Or.inr rfl, by rw [e1, e2]⟩
  | k + 1, left, lo, n, rhs, h1, h2, hT => by
    unfold TopoNet at hT
    by_cases hn : n ≤ 2 ^ (k + 1)
    · rw [if_pos hn] at hT
      obtain ⟨e, hT'⟩ := hT
      obtain ⟨i1, i2, i3⟩ := net_columns k (left + 1) lo n id h1 hn hT'
      refine ⟨fun x hx => by rw [(e x hx).2], ?_, ?_⟩
      · intro c h1 h2
        by_cases hc : c = left
        · subst hc
          refine ⟨fun x hx => by rw [(e x hx).1]; exact hx, fun x y hx hy h => ?_⟩
          rw [(e x hx).1, (e y hy).1] at h
          exact h
        · by_cases hc' : c = left + 1 + 2 * k
          · subst hc'
            refine ⟨fun x hx => by rw [i1 x hx]; exact hx, fun x y hx hy h => ?_⟩
            rw [i1 x hx, i1 y hy] at h
            exact h
          · exact i2 c (by omega) (by omega)
      · intro c h1 h2
        by_cases hc : c = left
        · subst hc
          exact ⟨fun x hx => Or.inl (by rw [(e x hx).1])⟩
        · by_cases hc' : c = left + 2 * (k + 1)
          · subst hc'
            exact ⟨fun x hx => Or.inl (by rw [(e x hx).2])⟩
          · exact i3 c (by omega) (by omega)
    · rw [if_neg hn] at hT
      obtain ⟨e, hT1, hT2⟩ := hT
      have hp1 : 2 ≤ 2 ^ (k + 1) := Nat.le_self_pow (by omega) 2
      have hp : 2 ^ (k + 1 + 1) = 2 * 2 ^ (k + 1) := by rw [pow_succ]; omega
      obtain ⟨a1, a2, a3⟩ := net_columns k (left + 1) lo (n / 2) _ (by omega) (by omega) hT1
      obtain ⟨b1, b2, b3⟩ := net_columns k (left + 1) (lo + n / 2) (n - n / 2) _ (by omega) (by omega) hT2
      have split : ∀ x, In n lo x → In (n / 2) lo x ∨ In (n - n / 2) (lo + n / 2) x := by
        intro x hx; unfold In at *; omega
      -- the straight edges of the first column
      have hfst : ∀ x, In n lo x → (ed t left x).1 = if Straight n lo x then x else out n lo (x == canon lo x) x := by
        intro x hx
        rw [(e x hx).1]
        unfold leftEdge
        split
        · rfl
        · split <;> rfl
      refine ⟨?_, ?_, ?_⟩
      · intro x hx
        rw [(e x hx).2]
        unfold rightEdge
        split <;> rfl
      · intro c h1 h2
        by_cases hc : c = left
        · subst hc
          have hstr : ∀ x, Straight n lo x → x = out n lo false x := by
            intro x hs
            rw [hs.2, out_last (by omega)]
          refine ⟨fun x hx => ?_, fun x y hx hy h => ?_⟩
          · rw [hfst x hx]
            split
            · exact hx
            · rename_i hs
              exact out_in hx (fun h => absurd h hs)
          · rw [hfst x hx, hfst y hy] at h
            by_cases hsx : Straight n lo x
            · by_cases hsy : Straight n lo y
              · rw [hsx.2, hsy.2]
              · rw [if_pos hsx, if_neg hsy, hstr x hsx] at h
                obtain ⟨-, rfl | rfl⟩ := out_inj hx hy (fun _ => rfl) (fun hh => absurd hh hsy) h
                · rfl
                · exact absurd hsx (straight_other hy)
            · by_cases hsy : Straight n lo y
              · rw [if_neg hsx, if_pos hsy, hstr y hsy] at h
                obtain ⟨-, rfl | rfl⟩ := out_inj hx hy (fun hh => absurd hh hsx) (fun _ => rfl) h
                · rfl
                · exact absurd hsy (other_straight hx)
              · rw [if_neg hsx, if_neg hsy] at h
                obtain ⟨hb, rfl | rfl⟩ := out_inj hx hy (fun hh => absurd hh hsx) (fun hh => absurd hh hsy) h
                · rfl
                · rw [canon_other_iff hx.1] at hb
                  cases hv : (x == canon lo x) <;> simp [hv] at hb
        · by_cases hc' : c = left + 1 + 2 * k
          · subst hc'
            have hv : ∀ x, In n lo x → (ed t (left + 1 + 2 * k) x).1 = innerDest n lo x := by
              intro x hx
              rcases split x hx with h | h
              · exact a1 x h
              · exact b1 x h
            refine ⟨fun x hx => by rw [hv x hx]; exact innerDest_in (by omega) hx, fun x y hx hy h => ?_⟩
            rw [hv x hx, hv y hy] at h
            exact innerDest_inj (by omega) hx hy h
          · obtain ⟨c1, c2⟩ := a2 c (by omega) (by omega)
            obtain ⟨d1, d2⟩ := b2 c (by omega) (by omega)
            refine ⟨fun x hx => ?_, fun x y hx hy h => ?_⟩
            · rcases split x hx with h | h
              · have := c1 x h; unfold In at *; omega
              · have := d1 x h; unfold In at *; omega
            · rcases split x hx with h' | h' <;> rcases split y hy with h'' | h''
              · exact c2 x y h' h'' h
              · have k1 := c1 x h'
                have k2 := d1 y h''
                unfold In at *; omega
              · have k1 := d1 x h'
                have k2 := c1 y h''
                unfold In at *; omega
              · exact d2 x y h' h'' h
      · intro c h1 h2
        by_cases hc : c = left
        · subst hc
          refine ⟨fun x hx => ?_⟩
          by_cases hs : Straight n lo x
          · left; rw [(e x hx).1, leftEdge, if_pos hs]
          · by_cases hsp : n % 2 = 0 ∧ lo + n - 2 ≤ x
            · left; rw [(e x hx).1, leftEdge, if_neg hs, if_pos hsp]
            · right
              have ho := other_in hx hs
              refine ⟨other lo x, ho, by have := canon_or hx.1; omega, ?_⟩
              rw [(e x hx).1, (e _ ho).1, leftEdge, leftEdge, if_neg hs, if_neg hsp, if_neg (other_straight hx),
                if_neg (by unfold other In at *; split <;> omega)]
              simp only [out_other hx.1, canon_other_iff hx.1, bne, Bool.not_not]
        · by_cases hc' : c = left + 2 * (k + 1)
          · subst hc'
            refine ⟨fun x hx => ?_⟩
            by_cases hs : Straight n lo x
            · left; rw [(e x hx).2, rightEdge, if_pos hs]
            · right
              have ho := other_in hx hs
              refine ⟨other lo x, ho, by have := canon_or hx.1; omega, ?_⟩
              rw [(e x hx).2, (e _ ho).2, rightEdge, rightEdge, if_neg hs, if_neg (other_straight hx), other_other hx.1]
          · refine ⟨fun x hx => ?_⟩
            rcases split x hx with h | h
            · rcases (a3 c (by omega) (by omega)).switch x h with h' | ⟨y, y1, y2, y3⟩
              · exact Or.inl h'
              · exact Or.inr ⟨y, by unfold In at *; omega, y2, y3⟩
            · rcases (b3 c (by omega) (by omega)).switch x h with h' | ⟨y, y1, y2, y3⟩
              · exact Or.inl h'
              · exact Or.inr ⟨y, by unfold In at *; omega, y2, y3⟩

/-- the topology of `n` packets -/
structure Net (n : Nat) (t : AsWaksmanTopology) : Prop where
  shape : ShapeT (awNumColumns n) n t
  lt : ∀ c x, c < awNumColumns n → x < n → (ed t c x).1 < n
  inj : ∀ c x y, c < awNumColumns n → x < n → y < n → (ed t c x).1 = (ed t c y).1 → x = y
  ok : ∀ c, c < awNumColumns n → ColumnOK t c 0 n

theorem exists_k {n : Nat} (hn : 2 ≤ n) : ∃ k, 2 ^ k < n ∧ n ≤ 2 ^ (k + 1) := by
  have h := Nat.clog_pos (b := 2) (by omega) hn
  refine ⟨Nat.clog 2 n - 1, Nat.pow_pred_clog_lt_self (by omega) (by omega), ?_⟩
  rw [show Nat.clog 2 n - 1 + 1 = Nat.clog 2 n by omega]
  exact Nat.le_pow_clog (by omega) n

theorem topology_spec {n : Nat} (hn : 2 ≤ n) : ∃ k t, n ≤ 2 ^ (k + 1) ∧ awNumColumns n = 2 * k + 1 ∧
    awTopology n = some t ∧ TopoNet t k 0 0 n id ∧ Net n t := by
  obtain ⟨k, k1, k2⟩ := exists_k hn
  have hw := numColumns_eq k2 k1
  have hsh : ShapeT (2 * k + 1) n (List.replicate (2 * k + 1) (List.replicate n (2 ^ 64 - 1, 2 ^ 64 - 1))) :=
    ⟨by simp, fun c hc => by rw [List.eq_of_mem_replicate hc]; simp⟩
  obtain ⟨t, e, s, T, -⟩ := construct_spec k (2 * k + 1 + 1) 0 0 n id (List.range n) _ (by omega) k2 (by omega) hsh
    (by omega) (by omega) (by simp) (by intro i hi; simp [hi]) (by omega)
  obtain ⟨h1, h2, h3⟩ := net_columns k 0 0 n id (by omega) k2 T
  have hin : ∀ x, x < n → In n 0 x := fun x hx => ⟨by omega, by omega⟩
  refine ⟨k, t, k2, hw, ?_, T, ⟨by rw [hw]; exact s, ?_, ?_, ?_⟩⟩
  · simp only [Nat.zero_add] at e
    simp only [awTopology, guard, hw, Option.bind_eq_bind]
    rw [if_pos (by omega), Option.pure_def, Option.bind_some, Nat.add_sub_cancel]
    exact e
  · intro c x hc hx
    by_cases h : c = 2 * k
    · rw [h, ← Nat.zero_add (2 * k), h1 x (hin x hx)]
      exact hx
    · have := (h2 c (by omega) (by omega)).1 x (hin x hx)
      unfold In at this
      omega
  · intro c x y hc hx hy he
    by_cases h : c = 2 * k
    · rw [h, ← Nat.zero_add (2 * k), h1 x (hin x hx), h1 y (hin y hy)] at he
      exact he
    · exact (h2 c (by omega) (by omega)).2 x y (hin x hx) (hin y hy) he
  · intro c hc
    exact h3 c (by omega) (by omega)

theorem Net.lt2 {n : Nat} {t : AsWaksmanTopology} (N : Net n t) {c x : Nat} (hc : c < awNumColumns n) (hx : x < n) :
    (ed t c x).2 < n := by
  rcases (N.ok c hc).switch x ⟨by omega, by omega⟩ with h | ⟨y, y1, -, y3⟩
  · rw [← h]; exact N.lt c x hc hx
  · have := N.lt c y hc (by unfold In at y1; omega)
    rw [y3] at this
    exact this

theorem routed_lt {n : Nat} {t : AsWaksmanTopology} (N : Net n t) {r : AsWaksmanRouting} {c x v : Nat}
    (hc : c < awNumColumns n) (hx : x < n) (h : awRouted t r c x = some v) : v < n := by
  obtain ⟨l, h1, -, h3⟩ := ed_get N.shape hc
  rw [awRouted, h1] at h
  simp only [Option.bind_eq_bind, Option.bind_some, h3 x hx] at h
  split at h
  · rw [← Option.some.inj h]; exact N.lt c x hc hx
  · obtain ⟨m, -, h⟩ := Option.bind_eq_some_iff.1 h
    have key : ∀ s : Bool, (if s = true then (ed t c x).2 else (ed t c x).1) < n := by
      intro s
      split
      · exact N.lt2 hc hx
      · exact N.lt c x hc hx
    split at h
    · rw [← Option.some.inj h]; exact key _
    · rw [← Option.some.inj h]; exact key _
    · cases h

/-! ## the checker's columns -/

/-- every row of the column is routed, and no two rows to the same row -/
def ColumnMaps (n : Nat) (t : AsWaksmanTopology) (r : AsWaksmanRouting) (c : Nat) : Prop :=
  (∀ x < n, ∃ v, awRouted t r c x = some v) ∧
    ∀ x y v, x < n → y < n → awRouted t r c x = some v → awRouted t r c y = some v → x = y

theorem ofSize_range {n : Nat} (h0 : 0 < n) (h : n < 2 ^ 64) : OnRange n 0 (IntPerm.ofSize n) := by
  have hm : (n + (2 ^ 64 - 1)) % 2 ^ 64 = n - 1 := by omega
  refine ⟨⟨Nat.zero_le _, ?_⟩, rfl, ?_⟩
  · simp only [IntPerm.ofSize, hm, List.length_range]; omega
  · simp only [IntPerm.ofSize, hm]; omega

theorem ofSize_get {n x : Nat} (h : n < 2 ^ 64) (hx : x < n) : (IntPerm.ofSize n).get x = some x := by
  have hm : (n + (2 ^ 64 - 1)) % 2 ^ 64 = n - 1 := by omega
  have hi' : x ≤ (n + (2 ^ 64 - 1)) % 2 ^ 64 := by omega
  rw [IntPerm.get, IntPerm.ofSize]
  simp only
  rw [if_pos ⟨Nat.zero_le _, hi'⟩, Nat.sub_zero, List.getElem?_range hx]

theorem column_maps {n : Nat} (hn : 2 ≤ n) (h64 : n < 2 ^ 64) {t : AsWaksmanTopology} (N : Net n t) {r : AsWaksmanRouting} {c : Nat}
    (hc : c < awNumColumns n) (hm : ColumnMaps n t r c) {cur : IntPerm} (ho : OnRange n 0 cur) :
    ∃ nxt, awColumn t r n cur c = some nxt ∧ OnRange n 0 nxt ∧
      ∀ x v, x < n → awRouted t r c x = some v → nxt.get v = cur.get x := by
  have hget : ∀ x, x < n → ∃ u, cur.get x = some u := by
    intro x hx
    obtain ⟨⟨w1, w2⟩, h1, h2⟩ := ho
    rw [h1, h2] at w2
    refine ⟨cur.contents[x - 0]'(by omega), ?_⟩
    rw [IntPerm.get, if_pos ⟨by omega, by omega⟩, h1, List.getElem?_eq_getElem (by omega)]
  have key : ∀ m, m ≤ n → ∃ nxt, (List.range m).foldlM (fun nextperm packet => do
      let r ← awRouted t r c packet
      let v ← cur.get packet
      nextperm.set r v) (IntPerm.ofSize n) = some nxt ∧ OnRange n 0 nxt ∧
      ∀ x v, x < m → awRouted t r c x = some v → nxt.get v = cur.get x := by
    intro m
    induction m with
    | zero =>
      intro _
      exact ⟨_, rfl, ofSize_range (by omega) h64, by simp⟩
    | succ m ih =>
      intro hm'
      obtain ⟨nxt, e1, o1, g1⟩ := ih (by omega)
      obtain ⟨v, hv⟩ := hm.1 m (by omega)
      obtain ⟨u, hu⟩ := hget m (by omega)
      have hvn := routed_lt N hc (by omega) hv
      obtain ⟨q, s1, s2, s3, s4⟩ := perm_set o1 (x := v) ⟨by omega, by omega⟩ u
      refine ⟨q, ?_, s2, ?_⟩
      · rw [List.range_succ, List.foldlM_append, e1]
        simp only [Option.bind_eq_bind, Option.bind_some, List.foldlM_cons, List.foldlM_nil, hv, hu, s1, Option.pure_def]
      · intro x w hx hw
        rcases Nat.lt_succ_iff_lt_or_eq.1 hx with h | rfl
        · rw [s4 w ⟨by omega, by have := routed_lt N hc (by omega : x < n) hw; omega⟩ ?_]
          · exact g1 x w h hw
          · rintro rfl
            have := hm.2 x m w (by omega) (by omega) hw hv
            omega
        · rw [hv] at hw
          rw [← Option.some.inj hw, s3, hu]
  exact key n (le_refl _)

/-- a column that the checker gets through routes every row -/
theorem column_total {t : AsWaksmanTopology} {r : AsWaksmanRouting} {c n : Nat} {cur nxt : IntPerm}
    (h : awColumn t r n cur c = some nxt) : ∀ x < n, ∃ v, awRouted t r c x = some v := by
  have key : ∀ m q, (List.range m).foldlM (fun nextperm packet => do
      let r ← awRouted t r c packet
      let v ← cur.get packet
      nextperm.set r v) (IntPerm.ofSize n) = some q → ∀ x < m, ∃ v, awRouted t r c x = some v := by
    intro m
    induction m with
    | zero => intro q _ x hx; omega
    | succ m ih =>
      intro q hq x hx
      rw [List.range_succ, List.foldlM_append] at hq
      obtain ⟨q', h1, h2⟩ := Option.bind_eq_some_iff.1 hq
      rcases Nat.lt_succ_iff_lt_or_eq.1 hx with h | rfl
      · exact ih q' h1 x h
      · rw [List.foldlM_cons] at h2
        obtain ⟨q'', h3, -⟩ := Option.bind_eq_some_iff.1 h2
        obtain ⟨v, h4, -⟩ := Option.bind_eq_some_iff.1 h3
        exact ⟨v, h4⟩
  exact key n nxt h

theorem columns_total {t : AsWaksmanTopology} {r : AsWaksmanRouting} {n : Nat} : ∀ (m : Nat) (s q : IntPerm),
    (List.range m).foldlM (awColumn t r n) s = some q → ∀ c < m, ∀ x < n, ∃ v, awRouted t r c x = some v
  | 0, _, _, _, c, hc => by omega
  | m + 1, s, q, hq, c, hc => by
    rw [List.range_succ, List.foldlM_append] at hq
    obtain ⟨q', h1, h2⟩ := Option.bind_eq_some_iff.1 hq
    rcases Nat.lt_succ_iff_lt_or_eq.1 hc with h | rfl
    · exact columns_total m s q' h1 c h
    · rw [List.foldlM_cons] at h2
      obtain ⟨q'', h3, -⟩ := Option.bind_eq_some_iff.1 h2
      exact column_total h3

theorem walk_lt {n : Nat} {t : AsWaksmanTopology} (N : Net n t) {r : AsWaksmanRouting} : ∀ (m c x v : Nat),
    c + m ≤ awNumColumns n → x < n → walk t r c m x = some v → v < n
  | 0, c, x, v, hc, hx, h => by
    rw [walk] at h
    rw [← Option.some.inj h]
    exact hx
  | m + 1, c, x, v, hc, hx, h => by
    rw [walk] at h
    obtain ⟨w, h1, h2⟩ := Option.bind_eq_some_iff.1 h
    exact walk_lt N m (c + 1) w v (by omega) (routed_lt N (by omega) hx h1) h2

/-- the checker's permutation after `m` columns is the inverse of the walk -/
theorem columns_maps {n : Nat} (hn : 2 ≤ n) (h64 : n < 2 ^ 64) {t : AsWaksmanTopology} (N : Net n t)
    {r : AsWaksmanRouting} : ∀ m, m ≤ awNumColumns n → (∀ c < m, ColumnMaps n t r c) →
    ∃ q, (List.range m).foldlM (awColumn t r n) (IntPerm.ofSize n) = some q ∧ OnRange n 0 q ∧
      ∀ x < n, ∃ v, walk t r 0 m x = some v ∧ v < n ∧ q.get v = some x
  | 0, _, _ => ⟨_, rfl, ofSize_range (by omega) h64, fun x hx => ⟨x, rfl, hx, ofSize_get h64 hx⟩⟩
  | m + 1, hm, h => by
    obtain ⟨q, e1, o1, g1⟩ := columns_maps hn h64 N m (by omega) (fun c hc => h c (by omega))
    obtain ⟨q', e2, o2, g2⟩ := column_maps hn h64 N (by omega) (h m (by omega)) o1
    refine ⟨q', ?_, o2, ?_⟩
    · rw [List.range_succ, List.foldlM_append, e1]
      simp only [Option.bind_eq_bind, Option.bind_some, List.foldlM_cons, List.foldlM_nil, e2, Option.pure_def]
    · intro x hx
      obtain ⟨v, w1, w2, w3⟩ := g1 x hx
      obtain ⟨u, hu⟩ := (h m (by omega)).1 v w2
      refine ⟨u, ?_, routed_lt N (by omega) w2 hu, ?_⟩
      · rw [walk_succ, w1, Option.bind_some, Nat.zero_add, hu]
      · rw [g2 v u w2 hu, w3]

/-- if the whole walk is defined and no two packets end up together, no two meet in any column -/
theorem maps_of_walk {n : Nat} {t : AsWaksmanTopology} (N : Net n t) {r : AsWaksmanRouting} : ∀ (m s : Nat),
    s + m = awNumColumns n → (∀ x < n, ∃ v, walk t r s m x = some v) →
    (∀ x y v, x < n → y < n → walk t r s m x = some v → walk t r s m y = some v → x = y) →
    ∀ c, s ≤ c → c < awNumColumns n → ColumnMaps n t r c
  | 0, s, hs, _, _, c, h1, h2 => by omega
  | m + 1, s, hs, htot, hinj, c, h1, h2 => by
    have first : ColumnMaps n t r s := by
      constructor
      · intro x hx
        obtain ⟨v, hv⟩ := htot x hx
        rw [walk] at hv
        obtain ⟨w, h1, -⟩ := Option.bind_eq_some_iff.1 hv
        exact ⟨w, h1⟩
      · intro x y v hx hy e1 e2
        obtain ⟨u, hu⟩ := htot x hx
        apply hinj x y u hx hy hu
        rw [walk, e1] at hu
        rw [walk, e2]
        exact hu
    have hval : ∀ x, x < n → awRouted t r s x = some ((awRouted t r s x).getD 0) := by
      intro x hx
      obtain ⟨v, hv⟩ := first.1 x hx
      rw [hv, Option.getD_some]
    have himg : (Finset.range n).image (fun x => (awRouted t r s x).getD 0) = Finset.range n := by
      apply Finset.eq_of_subset_of_card_le
      · intro y hy
        obtain ⟨x, hx, rfl⟩ := Finset.mem_image.1 hy
        have hx' := Finset.mem_range.1 hx
        exact Finset.mem_range.2 (routed_lt N (by omega) hx' (hval x hx'))
      · rw [Finset.card_image_of_injOn]
        intro x hx y hy e
        have hx' : x < n := by simpa using hx
        have hy' : y < n := by simpa using hy
        have e' : (awRouted t r s x).getD 0 = (awRouted t r s y).getD 0 := e
        exact first.2 x y _ hx' hy' (hval x hx') (by rw [e']; exact hval y hy')
    have pre : ∀ y, y < n → ∃ x, x < n ∧ awRouted t r s x = some y := by
      intro y hy
      have hy' := Finset.mem_range.2 hy
      rw [← himg] at hy'
      obtain ⟨x, hx, e⟩ := Finset.mem_image.1 hy'
      refine ⟨x, Finset.mem_range.1 hx, ?_⟩
      rw [← e]
      exact hval x (Finset.mem_range.1 hx)
    rcases Nat.eq_or_lt_of_le h1 with rfl | hlt
    · exact first
    · refine maps_of_walk N m (s + 1) (by omega) ?_ ?_ c hlt h2
      · intro y hy
        obtain ⟨x, hx, e⟩ := pre y hy
        obtain ⟨v, hv⟩ := htot x hx
        rw [walk, e] at hv
        exact ⟨v, hv⟩
      · intro y y' v hy hy' e1 e2
        obtain ⟨x, hx, e⟩ := pre y hy
        obtain ⟨x', hx', e'⟩ := pre y' hy'
        have := hinj x x' v hx hx' (by rw [walk, e]; exact e1) (by rw [walk, e']; exact e2)
        subst this
        rw [e] at e'
        exact Option.some.inj e'

/-! ## the specification's walk -/

/-- no setting is stored under the key that the row 0 wraps to -/
def NoWrap (r : AsWaksmanRouting) : Prop := ∀ m ∈ r, m (2 ^ 64 - 1) = none

theorem routed_eq {t : AsWaksmanTopology} {r : AsWaksmanRouting} (hr : NoWrap r) {c x : Nat} {edges : List (Nat × Nat)}
    {m : Nat → Option Bool} {e : Nat × Nat} (ht : t[c]? = some edges) (hm : r[c]? = some m) (he : edges[x]? = some e)
    (hx : x < 2 ^ 64) : awRouted t r c x =
      if e.1 = e.2 then some e.1 else (switchSetting m x).map fun s => if s then e.2 else e.1 := by
  rw [awRouted, ht]
  simp only [Option.bind_eq_bind, Option.bind_some, he, hm, Option.pure_def]
  split
  · rfl
  · unfold switchSetting
    have hk : m ((x + (2 ^ 64 - 1)) % 2 ^ 64) = if x = 0 then none else m (x - 1) := by
      split
      · rename_i h
        have hk0 : (x + (2 ^ 64 - 1)) % 2 ^ 64 = 2 ^ 64 - 1 := by omega
        rw [hk0]
        exact hr m (List.mem_of_getElem? hm)
      · have hk0 : (x + (2 ^ 64 - 1)) % 2 ^ 64 = x - 1 := by omega
        rw [hk0]
    rw [hk]
    cases m x <;> cases (if x = 0 then none else m (x - 1)) <;> rfl

theorem follow_aux {n : Nat} (h64 : n < 2 ^ 64) {t : AsWaksmanTopology} (N : Net n t) {r : AsWaksmanRouting}
    (hl : r.length = awNumColumns n) (hr : NoWrap r) : ∀ (m s x : Nat), s + m = awNumColumns n → x < n →
    followWaksman (t.drop s) (r.drop s) x = walk t r s m x
  | 0, s, x, hs, hx => by
    rw [List.drop_eq_nil_of_le (by rw [N.shape.1]; omega), List.drop_eq_nil_of_le (by omega)]
    rfl
  | m + 1, s, x, hs, hx => by
    have hlt : s < t.length := by rw [N.shape.1]; omega
    have hlr : s < r.length := by omega
    have ht := List.getElem?_eq_getElem hlt
    have hm := List.getElem?_eq_getElem hlr
    have hxe : x < t[s].length := by rw [N.shape.2 _ (List.getElem_mem hlt)]; exact hx
    have he := List.getElem?_eq_getElem hxe
    have hR := routed_eq hr ht hm he (by omega)
    rw [List.drop_eq_getElem_cons hlt, List.drop_eq_getElem_cons hlr, followWaksman, he, walk]
    simp only [Option.bind_eq_bind, Option.bind_some]
    by_cases h : t[s][x].1 = t[s][x].2
    · rw [if_pos h] at hR
      rw [if_pos h, hR, Option.bind_some]
      exact follow_aux h64 N hl hr m (s + 1) _ (by omega) (routed_lt N (by omega) hx hR)
    · rw [if_neg h] at hR
      rw [if_neg h]
      cases hs' : switchSetting r[s] x with
      | none =>
        rw [hs'] at hR
        rw [hR]
        rfl
      | some b =>
        rw [hs', Option.map_some] at hR
        rw [hR, Option.bind_some, Option.bind_some]
        exact follow_aux h64 N hl hr m (s + 1) _ (by omega) (routed_lt N (by omega) hx hR)

theorem follow_eq {n : Nat} (h64 : n < 2 ^ 64) {t : AsWaksmanTopology} (N : Net n t) {r : AsWaksmanRouting}
    (hl : r.length = awNumColumns n) (hr : NoWrap r) {x : Nat} (hx : x < n) :
    followWaksman t r x = walk t r 0 (awNumColumns n) x := by
  have := follow_aux h64 N hl hr (awNumColumns n) 0 x (by omega) hx
  rwa [List.drop_zero, List.drop_zero] at this

theorem Net.switchColumns {n : Nat} {t : AsWaksmanTopology} (N : Net n t) : ∀ edges ∈ t, SwitchColumn n edges := by
  intro edges hmem
  obtain ⟨c, hc, rfl⟩ := List.mem_iff_getElem.1 hmem
  have hcW : c < awNumColumns n := by rw [← N.shape.1]; exact hc
  obtain ⟨l, h1, h2, h3⟩ := ed_get N.shape hcW
  rw [List.getElem?_eq_getElem hc] at h1
  obtain rfl := Option.some.inj h1
  have hed : ∀ x (hx : x < t[c].length), t[c][x] = ed t c x := by
    intro x hx
    have := h3 x (by omega)
    rw [List.getElem?_eq_getElem hx] at this
    exact Option.some.inj this
  refine ⟨h2, ?_, ?_, ?_⟩
  · intro e he
    obtain ⟨x, hx, rfl⟩ := List.mem_iff_getElem.1 he
    rw [hed x hx]
    exact ⟨N.lt c x hcW (by omega), N.lt2 hcW (by omega)⟩
  · rw [List.nodup_iff_injective_getElem]
    intro x y e
    obtain ⟨x, hx⟩ := x
    obtain ⟨y, hy⟩ := y
    simp only [List.length_map] at hx hy
    simp only [List.getElem_map, hed x hx, hed y hy] at e
    exact Fin.ext (N.inj c x y hcW (by omega) (by omega) e)
  · intro x e he
    obtain ⟨hx, rfl⟩ := List.getElem?_eq_some_iff.1 he
    rw [hed x hx]
    rcases (N.ok c hcW).switch x ⟨by omega, by omega⟩ with h | ⟨y, y1, y2, y3⟩
    · exact Or.inl h
    · right
      have hy : y < n := by unfold In at y1; omega
      rcases y2 with rfl | rfl
      · left
        rw [h3 _ hy, y3]
      · right
        refine ⟨by omega, ?_⟩
        rw [Nat.add_sub_cancel, h3 _ hy, y3]

/-- settings on which the rows of each switch agree send different rows to different rows -/
theorem maps_of_agree {n : Nat} (h64 : n < 2 ^ 64) {t : AsWaksmanTopology} (N : Net n t) {r : AsWaksmanRouting}
    (hl : r.length = awNumColumns n) (hr : NoWrap r) (ha : WaksmanSwitchesAgree t r) {c : Nat}
    (hc : c < awNumColumns n) (htot : ∀ x < n, ∃ v, awRouted t r c x = some v) : ColumnMaps n t r c := by
  refine ⟨htot, ?_⟩
  obtain ⟨l, h1, h2, h3⟩ := ed_get N.shape hc
  have hlr : c < r.length := by omega
  have hm := List.getElem?_eq_getElem hlr
  -- a row is sent along its straight edge or along the straight edge of its partner
  have key : ∀ x v, x < n → awRouted t r c x = some v → v = (ed t c x).1 ∨
      ∃ y, y < n ∧ ed t c y = ((ed t c x).2, (ed t c x).1) ∧ v = (ed t c y).1 ∧ (ed t c x).1 ≠ (ed t c x).2 ∧
        switchSetting r[c] x = some true := by
    intro x v hx hv
    rw [routed_eq hr h1 hm (h3 x hx) (by omega)] at hv
    split at hv
    · exact Or.inl (Option.some.inj hv).symm
    · rename_i hne
      obtain ⟨b, hb, hv⟩ := Option.map_eq_some_iff.1 hv
      cases b with
      | false => exact Or.inl hv.symm
      | true =>
        rcases (N.ok c hc).switch x ⟨by omega, by omega⟩ with h | ⟨y, y1, -, y3⟩
        · exact absurd h hne
        · refine Or.inr ⟨y, by unfold In at y1; omega, y3, ?_, hne, hb⟩
          rw [y3]
          exact hv.symm
  have strt : ∀ x, x < n → (ed t c x).1 ≠ (ed t c x).2 → awRouted t r c x = some (ed t c x).1 →
      switchSetting r[c] x = some true → False := by
    intro x hx hne hv hs
    rw [routed_eq hr h1 hm (h3 x hx) (by omega), if_neg hne, hs] at hv
    exact hne (Option.some.inj hv).symm
  intro x y v hx hy e1 e2
  rcases key x v hx e1 with k1 | ⟨x', l1, l2, l3, l4, l5⟩ <;> rcases key y v hy e2 with k2 | ⟨y', m1, m2, m3, m4, m5⟩
  · exact N.inj c x y hc hx hy (by rw [← k1, ← k2])
  · exfalso
    obtain rfl := N.inj c x y' hc hx m1 (by rw [← k1, ← m3])
    have hs := ha c l r[c] h1 hm y x _ (h3 y hy) m4 (by rw [h3 x hx, m2])
    rw [m5] at hs
    exact strt x hx (by rw [m2]; exact Ne.symm m4) (by rw [← k1]; exact e1) hs.symm
  · exfalso
    obtain rfl := N.inj c y x' hc hy l1 (by rw [← k2, ← l3])
    have hs := ha c l r[c] h1 hm x y _ (h3 x hx) l4 (by rw [h3 y hy, l2])
    rw [l5] at hs
    exact strt y hy (by rw [l2]; exact Ne.symm l4) (by rw [← k2]; exact e2) hs.symm
  · have := N.inj c x' y' hc l1 m1 (by rw [← l3, ← m3])
    subst this
    rw [l2] at m2
    have e : (ed t c x).1 = (ed t c y).1 := (Prod.ext_iff.1 m2).2
    exact N.inj c x y hc hx hy e

end Crypto3Zk.Waksman
