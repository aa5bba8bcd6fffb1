import Verif.Lemmas.AsWaksmanLoop

/-! # The recursion of the AS-Waksman router -/

namespace Crypto3Zk.Waksman

open Benes (In BPerm)

set_option linter.unusedSectionVars false

/-! ## following the packets -/

/-- through `m` columns from column `c` -/
def walk (t : AsWaksmanTopology) (r : AsWaksmanRouting) : Nat → Nat → Nat → Option Nat
  | _, 0, x => some x
  | c, m + 1, x => (awRouted t r c x).bind (walk t r (c + 1) m)

theorem walk_succ (t : AsWaksmanTopology) (r : AsWaksmanRouting) : ∀ (m c x : Nat),
    walk t r c (m + 1) x = (walk t r c m x).bind (awRouted t r (c + m))
  | 0, c, x => by simp [walk]
  | m + 1, c, x => by
    rw [walk]
    have : ∀ y, walk t r (c + 1) (m + 1) y = (walk t r (c + 1) m y).bind (awRouted t r (c + (m + 1))) := by
      intro y
      rw [walk_succ t r m (c + 1), show c + 1 + m = c + (m + 1) by omega]
    simp only [funext this]
    rw [walk, Option.bind_assoc]

/-- the key below, as an unsigned number -/
def pred (x : Nat) : Nat := (x + (2 ^ 64 - 1)) % 2 ^ 64

theorem pred_succ {x : Nat} (h : x + 1 < 2 ^ 64) : pred (x + 1) = x := by
  unfold pred; omega

variable {cols rows n lo left right c x : Nat} {t : AsWaksmanTopology} {r : AsWaksmanRouting}

theorem step_straight (ht : ShapeT cols rows t) (hc : c < cols) (hx : x < rows) {v : Nat} (he : ed t c x = (v, v)) :
    awRouted t r c x = some v := by
  obtain ⟨l, h1, -, h3⟩ := ed_get ht hc
  rw [awRouted, h1]
  simp only [Option.bind_eq_bind, Option.bind_some, h3 x hx, he, if_true, Option.pure_def]

theorem step_switch (ht : ShapeT cols rows t) (hr : r.length = cols) (hc : c < cols) (hx : x < rows)
    (hlo : lo ≤ x) (h64 : x < 2 ^ 64) {s : Bool} (hs : cellR r c (canon lo x) = some s)
    (h1 : x = canon lo x → cellR r c (pred x) = none) (h2 : x ≠ canon lo x → cellR r c x = none) {a b : Nat}
    (he : ed t c x = (a, b)) : awRouted t r c x = some (if s then b else a) := by
  by_cases hab : a = b
  · subst hab
    rw [step_straight ht hc hx he]
    simp
  · obtain ⟨l, e1, -, e3⟩ := ed_get ht hc
    have g := cellR_get hr hc
    rw [awRouted, e1]
    simp only [Option.bind_eq_bind, Option.bind_some, e3 x hx, he, if_neg hab, g]
    by_cases hcx : x = canon lo x
    · have k1 : cellR r c x = some s := by rw [hcx]; exact hs
      have k2 := h1 hcx
      unfold pred at k2
      rw [k1, k2]
      simp
    · have k1 := h2 hcx
      have hp : (x + (2 ^ 64 - 1)) % 2 ^ 64 = canon lo x := by
        unfold canon at *
        omega
      rw [hp, k1, hs]
      simp

/-! ## the sides after the loop -/

variable {f g : Nat → Nat} {r0 : AsWaksmanRouting} {side : Nat → Option Bool} {st : AwState} {p inv : IntPerm}

theorem opposite_left (I : Inv n lo left right cols f g r0 side false st) (hx : In n lo x) (hs : ¬ Straight n lo x)
    {b : Bool} (h : side x = some b) (hall : ∀ y, In n lo y → side y ≠ none) : side (other lo x) = some (!b) := by
  obtain ⟨c, hc⟩ := Option.ne_none_iff_exists'.1 (hall _ (other_in hx hs))
  have h1 := I.L.left _ _ hx hs h
  have h2 := I.L.left _ _ (other_in hx hs) (other_straight hx) hc
  rw [canon_other hx.1, h1, setting_other hx.1] at h2
  have := setting_inj (Option.some.inj h2)
  rw [hc, this, Bool.not_not]

theorem opposite_right (F : Fun n lo f g) (I : Inv n lo left right cols f g r0 side false st) (hx : In n lo x)
    (hs : ¬ Straight n lo (f x)) {b : Bool} (h : side x = some b) (hall : ∀ y, In n lo y → side y ≠ none) :
    side (mate lo f g x) = some (!b) := by
  have hm := mate_in F hx hs
  obtain ⟨c, hc⟩ := Option.ne_none_iff_exists'.1 (hall _ hm)
  have h1 := I.R.right _ _ hx hs h (fun _ => rfl)
  have h2 := I.R.right _ _ hm (by rw [f_mate F hx hs]; exact other_straight (F.f_in x hx)) hc (fun _ => rfl)
  rw [f_mate F hx hs, canon_other (F.f_in x hx).1, h1, setting_other (F.f_in x hx).1] at h2
  have := setting_inj (Option.some.inj h2)
  rw [hc, this, Bool.not_not]

/-- the row from which a row of a half is reached -/
theorem preimage (hy : In n lo x) {b : Bool} (hb : x < lo + n / 2 ↔ b = true) :
    ∃ y, In n lo y ∧ (Straight n lo y → b = false) ∧ out n lo b y = x := by
  unfold In at hy
  cases b
  · have : ¬ x < lo + n / 2 := by simpa using hb
    refine ⟨lo + 2 * (x - lo - n / 2), by unfold In; omega, fun _ => rfl, ?_⟩
    unfold out
    simp
    omega
  · have : x < lo + n / 2 := by simpa using hb
    refine ⟨lo + 2 * (x - lo), by unfold In; omega, ?_, ?_⟩
    · unfold Straight; omega
    · unfold out
      simp
      omega

theorem out_other (hx : lo ≤ x) (b : Bool) : out n lo b (other lo x) = out n lo b x := by
  unfold out other
  split <;> omega

theorem left_exists (I : Inv n lo left right cols f g r0 side false st) (hall : ∀ y, In n lo y → side y ≠ none) {y : Nat}
    (hy : In n lo y) {b : Bool} (hb : y < lo + n / 2 ↔ b = true) : ∃ x, In n lo x ∧ side x = some b ∧ out n lo b x = y := by
  obtain ⟨x, h1, h2, h3⟩ := preimage hy hb
  obtain ⟨c, hc⟩ := Option.ne_none_iff_exists'.1 (hall x h1)
  by_cases hcb : c = b
  · exact ⟨x, h1, by rw [hc, hcb], h3⟩
  · by_cases hs : Straight n lo x
    · exact absurd (by rw [I.P.strL x c hs hc, h2 hs]) hcb
    · refine ⟨other lo x, other_in h1 hs, ?_, by rw [out_other h1.1, h3]⟩
      rw [opposite_left I h1 hs hc hall]
      cases b <;> cases c <;> simp at hcb ⊢

theorem right_exists (F : Fun n lo f g) (I : Inv n lo left right cols f g r0 side false st)
    (hall : ∀ y, In n lo y → side y ≠ none) {y : Nat}
    (hy : In n lo y) {b : Bool} (hb : y < lo + n / 2 ↔ b = true) :
    ∃ x, In n lo x ∧ side x = some b ∧ out n lo b (f x) = y := by
  obtain ⟨v, h1, h2, h3⟩ := preimage hy hb
  have hg := F.g_in v h1
  obtain ⟨c, hc⟩ := Option.ne_none_iff_exists'.1 (hall (g v) hg)
  have hfg := F.fg v h1
  by_cases hcb : c = b
  · exact ⟨g v, hg, by rw [hc, hcb], by rw [hfg, h3]⟩
  · by_cases hs : Straight n lo v
    · exact absurd (by rw [I.P.strR (g v) c (by rw [hfg]; exact hs) hc, h2 hs]) hcb
    · have hs' : ¬ Straight n lo (f (g v)) := by rw [hfg]; exact hs
      refine ⟨mate lo f g (g v), mate_in F hg hs', ?_, ?_⟩
      · rw [opposite_right F I hg hs' hc hall]
        cases b <;> cases c <;> simp at hcb ⊢
      · rw [f_mate F hg hs', hfg, out_other h1.1, h3]

/-- the objects passed to the recursion -/
theorem halves (h3 : 3 ≤ n) (F : Fun n lo f g) (I : Inv n lo left right cols f g r0 side false st)
    (hall : ∀ y, In n lo y → side y ≠ none) :
    ∃ up low iup ilow f' g', st.newPermutation.slice lo (lo + n / 2 - 1) = some up ∧
      st.newPermutation.slice (lo + n / 2) (lo + n - 1) = some low ∧
      st.newPermutationInv.slice lo (lo + n / 2 - 1) = some iup ∧
      st.newPermutationInv.slice (lo + n / 2) (lo + n - 1) = some ilow ∧
      BPerm (n / 2) lo up iup f' g' ∧ BPerm (n - n / 2) (lo + n / 2) low ilow f' g' ∧
      ∀ x b, In n lo x → side x = some b → f' (out n lo b x) = out n lo b (f x) := by
  obtain ⟨w1, a1, a2⟩ := I.P.npOn
  obtain ⟨w2, b1, b2⟩ := I.P.npiOn
  obtain ⟨up, u1, u2, u3, u4, u5⟩ := Benes.slice_get w1 (lo := lo) (hi := lo + n / 2 - 1) (by omega) (by omega) (by omega)
  obtain ⟨low, v1, v2, v3, v4, v5⟩ := Benes.slice_get w1 (lo := lo + n / 2) (hi := lo + n - 1) (by omega) (by omega)
    (by omega)
  obtain ⟨iup, s1, s2, s3, s4, s5⟩ := Benes.slice_get w2 (lo := lo) (hi := lo + n / 2 - 1) (by omega) (by omega) (by omega)
  obtain ⟨ilow, t1, t2, t3, t4, t5⟩ := Benes.slice_get w2 (lo := lo + n / 2) (hi := lo + n - 1) (by omega) (by omega)
    (by omega)
  set f' : Nat → Nat := fun y => (st.newPermutation.get y).getD 0 with hf'
  set g' : Nat → Nat := fun y => (st.newPermutationInv.get y).getD 0 with hg'
  have key : ∀ x b, In n lo x → side x = some b → f' (out n lo b x) = out n lo b (f x) ∧
      g' (out n lo b (f x)) = out n lo b x := by
    intro x b hx hb
    obtain ⟨h1, h2⟩ := I.P.npGet x b hx hb
    simp [hf', hg', h1, h2]
  -- both directions on a half
  have fwd : ∀ y b, In n lo y → (y < lo + n / 2 ↔ b = true) → st.newPermutation.get y = some (f' y) ∧ In n lo (f' y) ∧
      (f' y < lo + n / 2 ↔ b = true) ∧ g' (f' y) = y := by
    intro y b hy hb
    obtain ⟨x, h1, h2, h3⟩ := left_exists I hall hy hb
    obtain ⟨k1, k2⟩ := key x b h1 h2
    rw [h3] at k1 k2
    have hs : Straight n lo (f x) → b = false := fun h => I.P.strR x b h h2
    refine ⟨?_, by rw [k1]; exact out_in (F.f_in x h1) hs, by rw [k1]; exact out_half (F.f_in x h1) hs, by rw [k1, k2]⟩
    have := (I.P.npGet x b h1 h2).1
    rw [h3] at this
    rw [this, k1]
  have bwd : ∀ y b, In n lo y → (y < lo + n / 2 ↔ b = true) → st.newPermutationInv.get y = some (g' y) ∧ In n lo (g' y) ∧
      (g' y < lo + n / 2 ↔ b = true) ∧ f' (g' y) = y := by
    intro y b hy hb
    obtain ⟨x, h1, h2, h3⟩ := right_exists F I hall hy hb
    obtain ⟨k1, k2⟩ := key x b h1 h2
    rw [h3] at k1 k2
    have hs : Straight n lo x → b = false := fun h => I.P.strL x b h h2
    refine ⟨?_, by rw [k2]; exact out_in h1 hs, by rw [k2]; exact out_half h1 hs, by rw [k2, k1]⟩
    have := (I.P.npGet x b h1 h2).2
    rw [h3] at this
    rw [this, k2]
  have inUp : ∀ y, In (n / 2) lo y ↔ In n lo y ∧ (y < lo + n / 2 ↔ true = true) := by
    intro y; unfold In; simp; omega
  have inLow : ∀ y, In (n - n / 2) (lo + n / 2) y ↔ In n lo y ∧ (y < lo + n / 2 ↔ false = true) := by
    intro y; unfold In; simp; omega
  refine ⟨up, low, iup, ilow, f', g', u1, v1, s1, t1, ?_, ?_, fun x b hx hb => (key x b hx hb).1⟩
  · refine ⟨by omega, u2, u3, u4, s2, s3, s4, ?_, ?_, ?_, ?_, ?_, ?_⟩
    · intro y hy
      obtain ⟨h1, h2⟩ := (inUp y).1 hy
      exact (inUp _).2 ⟨(fwd y true h1 h2).2.1, (fwd y true h1 h2).2.2.1⟩
    · intro y hy
      obtain ⟨h1, h2⟩ := (inUp y).1 hy
      exact (inUp _).2 ⟨(bwd y true h1 h2).2.1, (bwd y true h1 h2).2.2.1⟩
    · intro y hy
      obtain ⟨h1, h2⟩ := (inUp y).1 hy
      exact (fwd y true h1 h2).2.2.2
    · intro y hy
      obtain ⟨h1, h2⟩ := (inUp y).1 hy
      exact (bwd y true h1 h2).2.2.2
    · intro y hy
      obtain ⟨h1, h2⟩ := (inUp y).1 hy
      rw [u5 y hy.1 (by unfold In at hy; omega)]
      exact (fwd y true h1 h2).1
    · intro y hy
      obtain ⟨h1, h2⟩ := (inUp y).1 hy
      rw [s5 y hy.1 (by unfold In at hy; omega)]
      exact (bwd y true h1 h2).1
  · refine ⟨by omega, v2, v3, by rw [v4]; omega, t2, t3, by rw [t4]; omega, ?_, ?_, ?_, ?_, ?_, ?_⟩
    · intro y hy
      obtain ⟨h1, h2⟩ := (inLow y).1 hy
      exact (inLow _).2 ⟨(fwd y false h1 h2).2.1, (fwd y false h1 h2).2.2.1⟩
    · intro y hy
      obtain ⟨h1, h2⟩ := (inLow y).1 hy
      exact (inLow _).2 ⟨(bwd y false h1 h2).2.1, (bwd y false h1 h2).2.2.1⟩
    · intro y hy
      obtain ⟨h1, h2⟩ := (inLow y).1 hy
      exact (fwd y false h1 h2).2.2.2
    · intro y hy
      obtain ⟨h1, h2⟩ := (inLow y).1 hy
      exact (bwd y false h1 h2).2.2.2
    · intro y hy
      obtain ⟨h1, h2⟩ := (inLow y).1 hy
      rw [v5 y hy.1 (by unfold In at hy; omega)]
      exact (fwd y false h1 h2).1
    · intro y hy
      obtain ⟨h1, h2⟩ := (inLow y).1 hy
      rw [t5 y hy.1 (by unfold In at hy; omega)]
      exact (bwd y false h1 h2).1

/-! ## the recursion -/

/-- what a call of the recursion leaves behind -/
structure Routed (cols k left lo n : Nat) (f : Nat → Nat) (r r' : AsWaksmanRouting) : Prop where
  len : r'.length = cols
  frame : ∀ c y, ¬ (left ≤ c ∧ c ≤ left + 2 * k ∧ In (n - 1) lo y) → cellR r' c y = cellR r c y
  walks : ∀ (rows : Nat) (t : AsWaksmanTopology) (rhs : Nat → Nat) (r'' : AsWaksmanRouting), ShapeT cols rows t →
    lo + n ≤ rows → TopoNet t k left lo n rhs → r''.length = cols →
    (∀ c y, left ≤ c → c ≤ left + 2 * k → In n lo y ∨ y = pred lo → cellR r'' c y = cellR r' c y) →
    ∀ x, In n lo x → walk t r'' left (2 * k + 1) x = some (rhs (f x))

theorem pred_not_in {m : Nat} (h : lo + n ≤ 2 ^ 64) (hm : m < n) : ¬ In m lo (pred lo) := by
  unfold In pred
  by_cases h0 : lo = 0
  · subst h0; omega
  · have : (lo + (2 ^ 64 - 1)) % 2 ^ 64 = lo - 1 := by omega
    omega

/-- the key below a row of the network is a row of the network, or the one below its first. -/
theorem pred_cases (h64 : lo + n ≤ 2 ^ 64) (hx : In n lo x) : (lo < x ∧ pred x = x - 1) ∨ (x = lo ∧ pred x = pred lo) := by
  unfold In at hx
  by_cases h : x = lo
  · exact Or.inr ⟨h, by rw [h]⟩
  · exact Or.inl ⟨by omega, by unfold pred; omega⟩

theorem route_spec (cols : Nat) : ∀ (k fuel left lo n : Nat) (p inv : IntPerm) (f g : Nat → Nat) (r : AsWaksmanRouting),
    BPerm n lo p inv f g → n ≤ 2 ^ (k + 1) → k + 2 ≤ fuel → lo + n ≤ 2 ^ 64 → r.length = cols → left + 2 * k < cols →
    (n = 1 → 0 < left + k) →
    (∀ c y, left ≤ c → c ≤ left + 2 * k → In n lo y ∨ y = pred lo → cellR r c y = none) →
    ∃ r', awRoute fuel left (left + 2 * k) lo (lo + n - 1) p inv r = some r' ∧ Routed cols k left lo n f r r'
  | 0, 0, _, _, _, _, _, _, _, _, _, _, hf, _, _, _, _, _ => by omega
  | 0, 1, _, _, _, _, _, _, _, _, _, _, hf, _, _, _, _, _ => by omega
  | 0, fuel + 2, left, lo, n, p, inv, f, g, r, B, hn, hf, h64, hr, hc, h0, hclean => by
    have hpos := B.pos
    by_cases hn1 : n = 1
    · subst hn1
      have h0' := h0 rfl
      refine ⟨r, ?_, hr, fun _ _ _ => rfl, ?_⟩
      · rw [awRoute, if_neg (by omega)]
        simp only [Nat.mul_zero, Nat.add_zero, Nat.add_sub_cancel, Nat.sub_self, Nat.zero_add, numColumns_one, guard,
          Nat.zero_le, if_true, gt_iff_lt, Nat.one_pos, Option.bind_eq_bind, Option.bind_some, Option.pure_def]
        rw [if_pos (by omega), Option.bind_some, awRoute, if_pos (by omega)]
      · intro rows t rhs r'' ht hrows hT hr'' hag x hx
        have hxlo : x = lo := by unfold In at hx; omega
        have hfx : f x = x := by
          have := B.f_in x hx
          unfold In at this hx
          omega
        unfold TopoNet at hT
        rw [if_pos rfl] at hT
        rw [hfx, hxlo, walk, step_straight ht (by omega) (by omega) hT]
        rfl
    · have hn2 : n = 2 := by simp at hn; omega
      subst hn2
      have hlo : In 2 lo lo := by unfold In; omega
      have hlo1 : In 2 lo (lo + 1) := by unfold In; omega
      have f0 := B.f_in _ hlo
      have f1 := B.f_in _ hlo1
      have hne : f lo ≠ f (lo + 1) := by
        intro h
        have := congrArg g h
        rw [B.gf _ hlo, B.gf _ hlo1] at this
        omega
      have hw : awNumColumns 2 = 1 := numColumns_eq (k := 0) (by omega) (by omega)
      obtain ⟨r', e1, l1, c1⟩ := assign_spec hr (c := left) (by omega) lo (f lo != lo)
      refine ⟨r', ?_, l1, ?_, ?_⟩
      · rw [awRoute, if_neg (by omega)]
        have e : lo + 2 - 1 - lo + 1 = 2 := by omega
        have g1 : f lo = lo ∨ f lo = lo + 1 := by unfold In at f0; omega
        have g2 : f (lo + 1) = lo ∨ f (lo + 1) = lo + 1 := by unfold In at f1; omega
        simp only [Nat.mul_zero, Nat.add_zero, Nat.sub_self, Nat.zero_add, e, hw, guard, le_refl, if_true, gt_iff_lt,
          lt_irrefl, if_false, Option.bind_eq_bind, Option.bind_some, Option.pure_def, B.get _ hlo, B.get _ hlo1, g1, g2, hne,
          ne_eq, not_false_eq_true, e1]
      · intro c y h
        rw [c1, if_neg]
        rintro ⟨rfl, rfl⟩
        exact h ⟨by omega, by omega, by unfold In; omega⟩
      · intro rows t rhs r'' ht hrows hT hr'' hag x hx
        unfold TopoNet at hT
        rw [if_neg (by omega)] at hT
        have hcan : canon lo x = lo := by unfold canon; unfold In at hx; omega
        have hcell : cellR r'' left (canon lo x) = some (f lo != lo) := by
          rw [hcan, hag left lo (by omega) (by omega) (Or.inl hlo), c1, if_pos ⟨rfl, rfl⟩]
        have h1 : x = canon lo x → cellR r'' left (pred x) = none := by
          intro h
          have hxlo : x = lo := by omega
          rw [hxlo, hag left (pred lo) (by omega) (by omega) (Or.inr rfl), c1, if_neg, hclean _ _ (by omega) (by omega) (Or.inr rfl)]
          rintro ⟨-, h'⟩
          exact pred_not_in (n := 2) h64 (m := 1) (by omega) (by rw [h']; unfold In; omega)
        have h2 : x ≠ canon lo x → cellR r'' left x = none := by
          intro h
          rw [hag left x (by omega) (by omega) (Or.inl hx), c1, if_neg (by omega), hclean _ _ (by omega) (by omega) (Or.inl hx)]
        have hx64 : x < 2 ^ 64 := lt_of_lt_of_le hx.2 h64
        have hstep : awRouted t r'' left x = some (rhs (f x)) := by
          rcases (show x = lo ∨ x = lo + 1 by unfold In at hx; omega) with h | h
          · have he : ed t left x = (rhs lo, rhs (lo + 1)) := by rw [h]; exact hT.1
            have := step_switch ht hr'' (by omega) (by have := hx.2; omega) hx.1 hx64 hcell h1 h2 he
            rw [this, h]
            by_cases hfl : f lo = lo
            · simp [hfl]
            · have : f lo = lo + 1 := by unfold In at f0; omega
              simp [this]
          · have he : ed t left x = (rhs (lo + 1), rhs lo) := by rw [h]; exact hT.2
            have := step_switch ht hr'' (by omega) (by have := hx.2; omega) hx.1 hx64 hcell h1 h2 he
            rw [this, h]
            by_cases hfl : f lo = lo
            · have : f (lo + 1) = lo + 1 := by unfold In at f1; omega
              simp [hfl, this]
            · have e1 : f (lo + 1) = lo := by unfold In at f0 f1; omega
              have e2 : f lo = lo + 1 := by unfold In at f0; omega
              simp [e1, e2]
        rw [walk, hstep]
        rfl
  | k + 1, 0, _, _, _, _, _, _, _, _, _, _, hf, _, _, _, _, _ => by omega
  | k + 1, fuel + 1, left, lo, n, p, inv, f, g, r, B, hn, hf, h64, hr, hc, h0, hclean => by
    have hpos := B.pos
    have hsize : lo + n - 1 - lo + 1 = n := by omega
    have hcols : left + 2 * (k + 1) - left + 1 = 2 * (k + 1) + 1 := by omega
    have hright : left + 2 * (k + 1) - 1 = left + 1 + 2 * k := by omega
    have hposR : 0 < left + 2 * (k + 1) := by omega
    have hle := numColumns_le hn
    by_cases hsm : n ≤ 2 ^ (k + 1)
    · have hlt := numColumns_lt hsm
      obtain ⟨r', e1, R1⟩ := route_spec cols k fuel (left + 1) lo n p inv f g r B hsm (by omega) h64 hr (by omega)
        (by omega) (fun c y h1 h2 => hclean c y (by omega) (by omega))
      refine ⟨r', ?_, R1.len, ?_, ?_⟩
      · rw [awRoute, if_neg (by omega)]
        simp only [hsize, hcols, guard, hle, if_true, gt_iff_lt, hlt, Option.bind_eq_bind, Option.bind_some,
          Option.pure_def, hposR, hright]
        exact e1
      · intro c y h
        exact R1.frame c y (fun h' => h ⟨by omega, by omega, h'.2.2⟩)
      · intro rows t rhs r'' ht hrows hT hr'' hag x hx
        unfold TopoNet at hT
        rw [if_pos hsm] at hT
        have hfx := B.f_in x hx
        have hw := R1.walks rows t id r'' ht hrows hT.2 hr'' (fun c y h1 h2 => hag c y (by omega) (by omega)) x hx
        rw [walk, step_straight ht (by omega) (by have := hx.2; omega) (hT.1 x hx).1, Option.bind_some,
          show 2 * (k + 1) = 2 * k + 1 + 1 by omega, walk_succ, hw, Option.bind_some, id,
          show left + 1 + (2 * k + 1) = left + 2 * (k + 1) by omega,
          step_straight ht (by omega) (by have := hfx.2; omega) (hT.1 _ hfx).2]
    · have heq := numColumns_eq hn (by omega : 2 ^ (k + 1) < n)
      have hp1 : 2 ≤ 2 ^ (k + 1) := Nat.le_self_pow (by omega) 2
      have hp : 2 ^ (k + 1 + 1) = 2 * 2 ^ (k + 1) := by rw [pow_succ]; omega
      have F : Fun n lo f g := ⟨B.f_in, B.g_in, B.gf, B.fg⟩
      have V : Lvl n lo left (left + 2 * (k + 1)) cols f g p inv :=
        ⟨by omega, h64, by omega, hc, F, B.get, B.get_inv⟩
      obtain ⟨side0, st0, i1, i2, i3⟩ := init_spec V hr (fun c y h1 h2 => hclean c y (by omega) (by omega) (Or.inl h2.1))
      obtain ⟨side, st, e2, I, lL, hall⟩ := loop_spec V (2 * n) side0 false st0 0 (by
        have : (unrouted n lo side0).card ≤ n := by
          unfold unrouted
          refine (Finset.card_filter_le _ _).trans ?_
          rw [Nat.card_Ico]
          omega
        omega) i2 i3
      -- the special switch
      obtain ⟨r1, e3, l1, c1⟩ : ∃ r1, (if n % 2 = 0 then awErase st.routing left (lo + n - 1 - 1) else pure st.routing) =
          some r1 ∧ r1.length = cols ∧ ∀ c y, ¬ (n % 2 = 0 ∧ c = left ∧ y = lo + n - 2) →
            cellR r1 c y = cellR st.routing c y := by
        by_cases hpar : n % 2 = 0
        · obtain ⟨r1, a1, a2, a3⟩ := erase_spec I.len (c := left) (by omega) (lo + n - 1 - 1)
          refine ⟨r1, by rw [if_pos hpar]; exact a1, a2, fun c y h => ?_⟩
          rw [a3, if_neg]
          rintro ⟨rfl, rfl⟩
          exact h ⟨hpar, rfl, by omega⟩
        · exact ⟨st.routing, by rw [if_neg hpar]; rfl, I.len, fun _ _ _ => rfl⟩
      have fr1 : ∀ c y, ¬ ((c = left ∨ c = left + 2 * (k + 1)) ∧ Switch n lo y) → cellR r1 c y = cellR r c y := by
        intro c y h
        rw [c1, I.frame c y h]
        rintro ⟨hp, rfl, rfl⟩
        refine h ⟨Or.inl rfl, ?_⟩
        unfold Switch In Straight canon
        omega
      have hsw : ∀ y, Switch n lo y → In (n - 1) lo y := by
        intro y hy
        unfold Switch Straight In canon at *
        omega
      have predn : ∀ m, In n lo m → pred lo ≠ m ∨ m = lo + n - 1 := by
        intro m hm
        by_cases h : m = lo + n - 1
        · exact Or.inr h
        · left
          intro h'
          exact pred_not_in (n := n) h64 (m := n - 1) (by omega) (by rw [h']; unfold In at *; omega)
      obtain ⟨up, low, iup, ilow, f', g', s1, s2, s3, s4, BU, BL, hf'⟩ := halves (by omega) F I hall
      obtain ⟨r2, e4, R2⟩ := route_spec cols k fuel (left + 1) lo (n / 2) up iup f' g' r1 BU (by omega) (by omega)
        (by omega) l1 (by omega) (by omega) (by
          intro c y h1 h2 h3
          rw [fr1 c y (by rintro ⟨h | h, -⟩ <;> omega)]
          refine hclean c y (by omega) (by omega) ?_
          rcases h3 with h3 | h3
          · left; unfold In at *; omega
          · exact Or.inr h3)
      have hpl : pred (lo + n / 2) = lo + n / 2 - 1 := by unfold pred; omega
      obtain ⟨r3, e5, R3⟩ := route_spec cols k fuel (left + 1) (lo + n / 2) (n - n / 2) low ilow f' g' r2 BL (by omega)
        (by omega) (by omega) R2.len (by omega) (by omega) (by
          intro c y h1 h2 h3
          rw [R2.frame c y (by
            rintro ⟨-, -, h⟩
            rw [hpl] at h3
            unfold In at h h3
            omega), fr1 c y (by rintro ⟨h | h, -⟩ <;> omega)]
          refine hclean c y (by omega) (by omega) (Or.inl ?_)
          rw [hpl] at h3
          unfold In at *
          omega)
      have hcolfix : ∀ c y, c = left ∨ c = left + 2 * (k + 1) → cellR r3 c y = cellR r1 c y := by
        intro c y h
        rw [R3.frame c y (by omega), R2.frame c y (by omega)]
      refine ⟨r3, ?_, R3.len, ?_, ?_⟩
      · rw [awRoute, if_neg (by omega)]
        have hn2 : ¬ n = 2 := by omega
        rw [show lo + n / 2 + (n - n / 2) - 1 = lo + n - 1 by omega] at e5
        simp only [hsize, hcols, guard, heq, if_true, gt_iff_lt, lt_irrefl, if_false, hn2, i1, e2, s1, s2, s3, s4,
          awTopHeight, Option.bind_eq_bind, Option.bind_some, Option.pure_def, hposR, hright, e4, le_refl]
        by_cases hpar : n % 2 = 0
        · rw [if_pos hpar] at e3 ⊢
          rw [e3, Option.bind_some, e4, Option.bind_some, e5]
        · rw [if_neg hpar] at e3 ⊢
          rw [show st.routing = r1 from Option.some.inj e3, e4, Option.bind_some, e5]
      · intro c y h
        rw [R3.frame c y (by
          rintro ⟨h1, h2, h3⟩
          exact h ⟨by omega, by omega, by unfold In at *; omega⟩), R2.frame c y (by
          rintro ⟨h1, h2, h3⟩
          exact h ⟨by omega, by omega, by unfold In at *; omega⟩), fr1 c y (by
          rintro ⟨h1, h2⟩
          exact h ⟨by omega, by omega, hsw y h2⟩)]
      · intro rows t rhs r'' ht hrows hT hr'' hag x hx
        unfold TopoNet at hT
        rw [if_neg hsm] at hT
        obtain ⟨hT1, hT2, hT3⟩ := hT
        obtain ⟨b, hb⟩ := Option.ne_none_iff_exists'.1 (hall x hx)
        have hfx := F.f_in x hx
        have hsL : Straight n lo x → b = false := fun h => I.P.strL x b h hb
        have hsR : Straight n lo (f x) → b = false := fun h => I.P.strR x b h hb
        have hox := out_in hx hsL
        -- rows without settings in the outer columns
        have hfree : ∀ c y, c = left ∨ c = left + 2 * (k + 1) → In n lo y ∨ y = pred lo → ¬ Switch n lo y →
            cellR r'' c y = none := by
          intro c y h1 h2 h3
          rw [hag c y (by omega) (by omega) h2, hcolfix c y h1, fr1 c y (fun h => h3 h.2),
            hclean c y (by omega) (by omega) h2]
        have hlow : ∀ c y, c = left ∨ c = left + 2 * (k + 1) → In n lo y → y = canon lo y →
            cellR r'' c (pred y) = none := by
          intro c y h1 h2 h3
          rcases pred_cases h64 h2 with ⟨g1, g2⟩ | ⟨g1, g2⟩
          · rw [g2]
            refine hfree c _ h1 (Or.inl (by unfold In at *; omega)) ?_
            unfold Switch canon at *
            omega
          · rw [g2]
            refine hfree c _ h1 (Or.inr rfl) ?_
            rintro ⟨k1, k2, k3⟩
            exact pred_not_in (n := n) (m := n - 1) h64 (by omega) (hsw _ ⟨k1, k2, k3⟩)
        have hodd : ∀ c y, c = left ∨ c = left + 2 * (k + 1) → In n lo y → y ≠ canon lo y → cellR r'' c y = none := by
          intro c y h1 h2 h3
          exact hfree c y h1 (Or.inl h2) (fun h => h3 h.2.2.symm)
        have h64' : ∀ y, In n lo y → y < 2 ^ 64 := fun y hy => lt_of_lt_of_le hy.2 h64
        -- the left column
        have step1 : awRouted t r'' left x = some (out n lo b x) := by
          have he := (hT1 x hx).1
          unfold leftEdge at he
          by_cases hs : Straight n lo x
          · rw [if_pos hs] at he
            rw [step_straight ht (by omega) (by have := hx.2; omega) he, hsL hs, hs.2, out_last (by omega)]
          · rw [if_neg hs] at he
            by_cases hsp : n % 2 = 0 ∧ lo + n - 2 ≤ x
            · rw [if_pos hsp] at he
              rw [step_straight ht (by omega) (by have := hx.2; omega) he]
              have hlast := lL hsp.1
              by_cases hxl : x = lo + n - 1
              · rw [hxl, hlast] at hb
                obtain rfl := Option.some.inj hb
                have : (x == canon lo x) = false := by
                  rw [beq_eq_false_iff_ne]
                  unfold canon
                  omega
                rw [this]
              · have hxo : other lo x = lo + n - 1 := by
                  unfold In at hx
                  rw [other, if_pos (by omega)]
                  omega
                have := opposite_left I hx hs hb hall
                rw [hxo, hlast] at this
                have hbt : b = true := by
                  have := Option.some.inj this
                  cases b <;> simp at this ⊢
                have hc : (x == canon lo x) = true := by
                  rw [beq_iff_eq]
                  unfold canon
                  unfold In at hx
                  omega
                rw [hc, hbt]
            · rw [if_neg hsp] at he
              have hcell : cellR r'' left (canon lo x) = some (setting lo x b) := by
                rw [hag left _ (by omega) (by omega) (Or.inl (canon_in hx)), hcolfix _ _ (Or.inl rfl), c1, I.L.left x b hx hs hb]
                unfold canon In at *
                omega
              rw [step_switch ht hr'' (by omega) (by have := hx.2; omega) hx.1 (h64' x hx) hcell (hlow left x (Or.inl rfl) hx)
                (hodd left x (Or.inl rfl) hx) he]
              unfold setting
              cases hcx : (x == canon lo x) <;> cases b <;> simp [bne, hcx]
        -- the subnetworks
        have step2 : walk t r'' (left + 1) (2 * k + 1) (out n lo b x) = some (innerDest n lo (out n lo b (f x))) := by
          rw [← hf' x b hx hb]
          have hhalf := out_half hx hsL
          by_cases hbt : b = true
          · refine R2.walks rows t _ r'' ht (by omega) hT2 hr'' ?_ _ ?_
            · intro c y h1 h2 h3
              rw [hag c y (by omega) (by omega) (by
                rcases h3 with h3 | h3
                · left; unfold In at *; omega
                · exact Or.inr h3), R3.frame]
              rintro ⟨-, -, h⟩
              rcases h3 with h3 | h3
              · unfold In at *; omega
              · rw [h3] at h
                exact pred_not_in (n := n) (m := n - 1) h64 (by omega) (by unfold In at *; omega)
            · have := hhalf.2 hbt
              unfold In at *
              omega
          · refine R3.walks rows t _ r'' ht (by omega) hT3 hr'' ?_ _ ?_
            · intro c y h1 h2 h3
              refine hag c y (by omega) (by omega) (Or.inl ?_)
              rw [hpl] at h3
              unfold In at *
              omega
            · have : ¬ out n lo b x < lo + n / 2 := fun h => hbt (hhalf.1 h)
              unfold In at *
              omega
        -- the right column
        have step3 : awRouted t r'' (left + 2 * (k + 1)) (innerDest n lo (out n lo b (f x))) = some (rhs (f x)) := by
          by_cases hs : Straight n lo (f x)
          · have hq : innerDest n lo (out n lo b (f x)) = f x := by
              rw [hsR hs, hs.2, out_last (by omega)]
              have := hs.1
              unfold innerDest
              rw [if_neg (by omega), if_neg (by omega)]
            have he := (hT1 _ hfx).2
            unfold rightEdge at he
            rw [if_pos hs] at he
            rw [hq, step_straight ht (by omega) (by have := hfx.2; omega) he]
          · have hq : innerDest n lo (out n lo b (f x)) = if (f x == canon lo (f x)) = b then f x else other lo (f x) := by
              have hns : ¬ (n % 2 = 1 ∧ f x = lo + n - 1) := hs
              unfold In at hfx
              have hcan : (f x == canon lo (f x)) = decide ((f x - lo) % 2 = 0) := by
                rw [Bool.eq_iff_iff, beq_iff_eq, decide_eq_true_eq]
                unfold canon
                omega
              rw [hcan]
              unfold innerDest out other
              cases b <;> by_cases hp : (f x - lo) % 2 = 0 <;> simp [hp] <;> split_ifs <;> omega
            set q := innerDest n lo (out n lo b (f x)) with hqdef
            have hqcases : q = f x ∨ q = other lo (f x) := by
              rw [hq]; split
              · exact Or.inl rfl
              · exact Or.inr rfl
            have hqIn : In n lo q := by
              rcases hqcases with h | h
              · rw [h]; exact hfx
              · rw [h]; exact other_in hfx hs
            have hqs : ¬ Straight n lo q := by
              rcases hqcases with h | h
              · rw [h]; exact hs
              · rw [h]; exact other_straight hfx
            have hqc : canon lo q = canon lo (f x) := by
              rcases hqcases with h | h
              · rw [h]
              · rw [h, canon_other hfx.1]
            have he := (hT1 q hqIn).2
            unfold rightEdge at he
            rw [if_neg hqs] at he
            have hcell : cellR r'' (left + 2 * (k + 1)) (canon lo q) = some (setting lo (f x) b) := by
              rw [hag _ _ (by omega) (by omega) (Or.inl (canon_in hqIn)), hcolfix _ _ (Or.inr rfl), c1 _ _ (by omega), hqc,
                I.R.right x b hx hs hb (fun _ => rfl)]
            rw [step_switch ht hr'' (by omega) (by have := hqIn.2; omega) hqIn.1 (h64' q hqIn) hcell
              (hlow _ q (Or.inr rfl) hqIn) (hodd _ q (Or.inr rfl) hqIn) he]
            unfold setting
            by_cases hcx : (f x == canon lo (f x)) = b
            · rw [if_pos hcx] at hq
              rw [hcx, hq]
              simp
            · rw [if_neg hcx] at hq
              rw [hq, other_other hfx.1]
              have : ((f x == canon lo (f x)) ^^ b) = true := by
                cases hv : (f x == canon lo (f x)) <;> cases b <;> simp [hv] at hcx ⊢
              rw [this]
              simp
        rw [walk, step1, Option.bind_some, show 2 * (k + 1) = 2 * k + 1 + 1 by omega, walk_succ, step2, Option.bind_some,
          show left + 1 + (2 * k + 1) = left + 2 * (k + 1) by omega, step3]

end Crypto3Zk.Waksman
