import Verif.Lemmas.AsWaksman

/-! # The loop of the AS-Waksman router: the three parts of an iteration -/

namespace Crypto3Zk.Waksman

open Benes (In BPerm)

set_option linter.unusedSectionVars false

/-- the rows under which settings are stored -/
def Switch (n lo y : Nat) : Prop := In n lo y ∧ ¬ Straight n lo y ∧ canon lo y = y

theorem canon_switch {n lo x : Nat} (hx : In n lo x) (hs : ¬ Straight n lo x) : Switch n lo (canon lo x) := by
  unfold Switch In Straight canon at *
  omega

variable {n lo left right cols : Nat} {f g : Nat → Nat} {r0 : AsWaksmanRouting} {side : Nat → Option Bool} {pend : Bool}
  {x y w z : Nat} {st : AwState} {p inv : IntPerm}

/-- the level of the recursion -/
structure Lvl (n lo left right cols : Nat) (f g : Nat → Nat) (p inv : IntPerm) : Prop where
  three : 3 ≤ n
  small : lo + n ≤ 2 ^ 64
  leftRight : left < right
  rightIn : right < cols
  F : Fun n lo f g
  get : ∀ x, In n lo x → p.get x = some (f x)
  get_inv : ∀ x, In n lo x → inv.get x = some (g x)

/-- the state of the loop -/
structure Inv (n lo left right cols : Nat) (f g : Nat → Nat) (r0 : AsWaksmanRouting) (side : Nat → Option Bool)
    (pend : Bool) (st : AwState) : Prop where
  P : FilledP n lo f side st.lhsRouted st.newPermutation st.newPermutationInv
  len : st.routing.length = cols
  L : FilledL n lo side (cellR st.routing left)
  R : FilledR n lo f g side pend (cellR st.routing right)
  frame : ∀ c y, ¬ ((c = left ∨ c = right) ∧ Switch n lo y) → cellR st.routing c y = cellR r0 c y
  before : ∀ x, In n lo x → st.maxUnrouted < x → side x ≠ none
  maxIn : In n lo st.maxUnrouted
  odd : n % 2 = 1 → side (lo + n - 1) ≠ none

theorem give_ne_none {b : Bool} (h : side y ≠ none) : give side x b y ≠ none := by
  unfold give
  split
  · simp
  · exact h

theorem default_spec (V : Lvl n lo left right cols f g p inv) (I : Inv n lo left right cols f g r0 side pend st)
    (hw : In n lo w) (hs : ¬ Straight n lo w) (hn : side w = none) {b : Bool}
    (hb : side (other lo w) = some (!b) ∨ (side (other lo w) = none ∧ (w - lo) % 2 = 1 ∧ b = false)) :
    ∃ r1, awDefault st.routing left (canon lo w) = some r1 ∧ r1.length = cols ∧
      cellR r1 left (canon lo w) = some (setting lo w b) ∧
      ∀ c y, ¬ (c = left ∧ y = canon lo w) → cellR r1 c y = cellR st.routing c y := by
  have hlc : left < cols := lt_trans V.leftRight V.rightIn
  have hcell := cellR_get I.len hlc
  have hset : (w - lo) % 2 = 1 → setting lo w false = false := by
    intro h
    have : ¬ w = canon lo w := by unfold canon; omega
    simp [setting, this]
  rcases hb with hb | ⟨hb, hpar, rfl⟩
  · have h1 := I.L.left _ _ (other_in hw hs) (other_straight hw) hb
    rw [canon_other hw.1, setting_other hw.1, Bool.not_not] at h1
    refine ⟨st.routing, ?_, I.len, h1, fun _ _ _ => rfl⟩
    rw [awDefault, hcell]
    simp only [Option.bind_eq_bind, Option.bind_some, h1, Option.pure_def]
  · have h1 := I.L.leftNew w hw hs hn hb
    split at h1
    · refine ⟨st.routing, ?_, I.len, by rw [h1, hset hpar], fun _ _ _ => rfl⟩
      rw [awDefault, hcell]
      simp only [Option.bind_eq_bind, Option.bind_some, h1, Option.pure_def]
    · obtain ⟨r1, e1, l1, c1⟩ := assign_spec I.len hlc (canon lo w) false
      refine ⟨r1, ?_, l1, by rw [c1, if_pos ⟨rfl, rfl⟩, hset hpar], fun c y h => by rw [c1, if_neg h]⟩
      rw [awDefault, hcell]
      simp only [Option.bind_eq_bind, Option.bind_some, h1, e1]

theorem hL_of {b : Bool}
    (hb : side (other lo w) = some (!b) ∨ (side (other lo w) = none ∧ (w - lo) % 2 = 1 ∧ b = false)) :
    ∀ c, side (other lo w) = some c → c = !b := by
  intro c hc
  rcases hb with h | ⟨h, -, -⟩
  · rw [h] at hc; exact (Option.some.inj hc).symm
  · rw [h] at hc; cases hc

/-- a packet routed from the left, with a switch on the right -/
theorem forward_switch (V : Lvl n lo left right cols f g p inv) (I : Inv n lo left right cols f g r0 side pend st)
    (hw : In n lo st.toRoute) (hs : ¬ Straight n lo st.toRoute) (hn : side st.toRoute = none) {b : Bool}
    (hb : side (other lo st.toRoute) = some (!b) ∨
      (side (other lo st.toRoute) = none ∧ (st.toRoute - lo) % 2 = 1 ∧ b = false))
    (hlast : f st.toRoute ≠ lo + n - 1)
    (hnew : side (mate lo f g st.toRoute) = none ∨ (pend = true ∧ other lo (f st.toRoute) = lo + n - 1))
    (hR : ∀ c, side (mate lo f g st.toRoute) = some c → c = !b) :
    ∃ st', awForward left right lo (lo + n - 1) n p st = some st' ∧
      Inv n lo left right cols f g r0 (give side st.toRoute b) (pend && (other lo (f st.toRoute) != lo + n - 1)) st' ∧
      st'.toRoute = other lo (f st.toRoute) ∧ st'.routeLeft = false ∧ st'.maxUnrouted = st.maxUnrouted := by
  have hlc : left < cols := lt_trans V.leftRight V.rightIn
  have h64 := V.small
  have hw2 : st.toRoute < 2 ^ 64 := lt_of_lt_of_le hw.2 h64
  have hfw := V.F.f_in _ hw
  have hfw2 : f st.toRoute < 2 ^ 64 := lt_of_lt_of_le hfw.2 h64
  have hfs : ¬ Straight n lo (f st.toRoute) := fun h => hlast h.2
  have hne : left ≠ right := Nat.ne_of_lt V.leftRight
  obtain ⟨r1, e1, l1, c1, d1⟩ := default_spec V I hw hs hn hb
  have hR1 : cellR r1 right (canon lo (f st.toRoute)) = none := by
    rw [d1 _ _ (fun h => hne h.1.symm)]
    exact I.R.rightNew _ hw hfs hn hnew
  obtain ⟨r2, e2, l2, c2⟩ := assign_spec l1 V.rightIn (canon lo (f st.toRoute)) (setting lo (f st.toRoute) b)
  obtain ⟨routed', np', npi', m1, m2, m3, P'⟩ := I.P.step V.F hw (b := b) (Or.inl hn) (fun h => absurd h hs)
    (fun h => absurd h hfs) (fun _ => hL_of hb) (fun _ => hR)
  refine ⟨⟨routed', other lo (f st.toRoute), false, st.maxUnrouted, np', npi', r2⟩, ?_, ?_, rfl, rfl, rfl⟩
  · have g1 := cellR_get l1 hlc
    have g2 := cellR_get l1 V.rightIn
    simp only [awForward, canonical_eq hw.1 hw2, e1, g1, c1, decision_eq hw.1 hw2, setting_setting,
      switchOutput_eq hw hs, V.get _ hw, Option.bind_eq_bind, Option.bind_some]
    rw [if_neg hlast]
    simp only [canonical_eq hfw.1 hfw2, g2, hR1, guard, if_true, setting_eq hfw.1 hfw2, e2, awSwitchInput,
      switchOutput_eq hfw hfs, m1, m2, m3, other_eq hfw.1 hfw2, Option.bind_some, Option.pure_def]
  · refine ⟨P', l2, ?_, ?_, ?_, ?_, I.maxIn, fun h => give_ne_none (I.odd h)⟩
    · refine I.L.step hw hs (hL_of hb) ?_ ?_
      · simp only
        rw [c2, if_neg (fun h => hne h.1), c1]
      · intro y hy
        simp only
        rw [c2, if_neg (fun h => hne h.1), d1 _ _ (fun h => hy h.2)]
    · have := I.R.step V.F hw hfs (R' := cellR r2 right) hR (by rw [c2, if_pos ⟨rfl, rfl⟩]) (fun y hy => by
        rw [c2, if_neg (fun h => hy h.2), d1 _ _ (fun h => hne h.1.symm)])
      have e : (f st.toRoute != lo + n - 1) = true := by simpa using hlast
      rw [e, Bool.and_true] at this
      exact this
    · intro c y h
      simp only
      rw [c2, if_neg, d1, I.frame c y h]
      · rintro ⟨rfl, rfl⟩
        exact h ⟨Or.inl rfl, canon_switch hw hs⟩
      · rintro ⟨rfl, rfl⟩
        exact h ⟨Or.inr rfl, canon_switch hfw hfs⟩
    · intro x hx hm
      exact give_ne_none (I.before x hx hm)

/-- the packet of the last output, routed from the left -/
theorem forward_last (V : Lvl n lo left right cols f g p inv) (I : Inv n lo left right cols f g r0 side pend st)
    (hw : In n lo st.toRoute) (hs : ¬ Straight n lo st.toRoute) (hn : side st.toRoute = none)
    (hb : side (other lo st.toRoute) = some true ∨ (side (other lo st.toRoute) = none ∧ (st.toRoute - lo) % 2 = 1))
    (hlast : f st.toRoute = lo + n - 1) (hm : n % 2 = 0 → side (mate lo f g st.toRoute) = none) :
    ∃ st', awForward left right lo (lo + n - 1) n p st = some st' ∧
      Inv n lo left right cols f g r0 (give side st.toRoute false) (if n % 2 = 0 then true else pend) st' ∧
      st'.toRoute = st.maxUnrouted ∧ st'.routeLeft = true ∧ st'.maxUnrouted = st.maxUnrouted := by
  have hlc : left < cols := lt_trans V.leftRight V.rightIn
  have h64 := V.small
  have h3 := V.three
  have hw2 : st.toRoute < 2 ^ 64 := lt_of_lt_of_le hw.2 h64
  have hfw := V.F.f_in _ hw
  have hne : left ≠ right := Nat.ne_of_lt V.leftRight
  have hb' : side (other lo st.toRoute) = some (!false) ∨
      (side (other lo st.toRoute) = none ∧ (st.toRoute - lo) % 2 = 1 ∧ false = false) := by
    rcases hb with h | ⟨h, h'⟩
    · exact Or.inl h
    · exact Or.inr ⟨h, h', rfl⟩
  have hR : ¬ Straight n lo (f st.toRoute) → side (mate lo f g st.toRoute) = none := by
    intro h
    refine hm ?_
    have : ¬ (n % 2 = 1 ∧ f st.toRoute = lo + n - 1) := h
    omega
  obtain ⟨r1, e1, l1, c1, d1⟩ := default_spec V I hw hs hn hb'
  obtain ⟨routed', np', npi', m1, m2, m3, P'⟩ := I.P.step V.F hw (b := false) (Or.inl hn) (fun _ => rfl) (fun _ => rfl)
    (fun _ => hL_of hb') (fun h c hc => by rw [hR h] at hc; cases hc)
  rw [hlast, out_last (by omega)] at m2 m3
  refine ⟨⟨routed', st.maxUnrouted, true, st.maxUnrouted, np', npi', r1⟩, ?_, ?_, rfl, rfl, rfl⟩
  · have g1 := cellR_get l1 hlc
    simp only [awForward, canonical_eq hw.1 hw2, e1, g1, c1, decision_eq hw.1 hw2, setting_setting,
      switchOutput_eq hw hs, V.get _ hw, Option.bind_eq_bind, Option.bind_some]
    rw [if_pos hlast]
    simp only [m1, m2, m3, Option.bind_some, Option.pure_def]
  · have hright : cellR r1 right = cellR st.routing right := by
      funext y
      exact d1 _ _ (fun h => hne h.1.symm)
    refine ⟨P', l1, ?_, ?_, ?_, ?_, I.maxIn, fun h => give_ne_none (I.odd h)⟩
    · exact I.L.step hw hs (hL_of hb') c1 (fun y hy => d1 _ _ (fun h => hy h.2))
    · simp only
      rw [hright]
      by_cases h : n % 2 = 0
      · rw [if_pos h]
        have hfs : ¬ Straight n lo (f st.toRoute) := fun h' => by have := h'.1; omega
        exact I.R.pending V.F hw hlast hfs hn (hm h)
      · rw [if_neg h]
        exact I.R.straight V.F ⟨by omega, hlast⟩
    · intro c y h
      simp only
      rw [d1, I.frame c y h]
      rintro ⟨rfl, rfl⟩
      exact h ⟨Or.inl rfl, canon_switch hw hs⟩
    · intro x hx hm
      exact give_ne_none (I.before x hx hm)

/-- a packet routed from the right -/
theorem backward_spec (V : Lvl n lo left right cols f g p inv) (I : Inv n lo left right cols f g r0 side pend st)
    (hz : In n lo st.toRoute) (hs : ¬ Straight n lo st.toRoute) (hys : ¬ Straight n lo (g st.toRoute)) {b : Bool}
    (hn : side (g st.toRoute) = none ∨ side (g st.toRoute) = some b)
    (hset : cellR st.routing right (canon lo st.toRoute) = some (setting lo st.toRoute b))
    (hfree : cellR st.routing left (canon lo (g st.toRoute)) = none ∨
      cellR st.routing left (canon lo (g st.toRoute)) = some (setting lo (g st.toRoute) b))
    (hL : ∀ c, side (other lo (g st.toRoute)) = some c → c = !b)
    (hR : ∀ c, side (g (other lo st.toRoute)) = some c → c = !b) :
    ∃ st', awBackward left right lo n inv st = some st' ∧
      Inv n lo left right cols f g r0 (give side (g st.toRoute) b)
        (pend && (st.toRoute != lo + n - 1) && (other lo st.toRoute != lo + n - 1)) st' ∧
      st'.toRoute = other lo (g st.toRoute) ∧ st'.routeLeft = true ∧ st'.maxUnrouted = st.maxUnrouted := by
  have hlc : left < cols := lt_trans V.leftRight V.rightIn
  have h64 := V.small
  have hne : left ≠ right := Nat.ne_of_lt V.leftRight
  have hz2 : st.toRoute < 2 ^ 64 := lt_of_lt_of_le hz.2 h64
  have hy := V.F.g_in _ hz
  have hy2 : g st.toRoute < 2 ^ 64 := lt_of_lt_of_le hy.2 h64
  have hfy := V.F.fg _ hz
  have hmate : mate lo f g (g st.toRoute) = g (other lo st.toRoute) := by rw [mate, hfy]
  obtain ⟨r1, e1, l1, c1⟩ := assign_spec I.len hlc (canon lo (g st.toRoute)) (setting lo (g st.toRoute) b)
  obtain ⟨routed', np', npi', m1, m2, m3, P'⟩ := I.P.step V.F hy (b := b) hn (fun h => absurd h hys)
    (fun h => absurd (hfy ▸ h) hs) (fun _ => hL) (fun _ => by rw [hmate]; exact hR)
  rw [hfy] at m2 m3
  refine ⟨⟨routed', other lo (g st.toRoute), true, st.maxUnrouted, np', npi', r1⟩, ?_, ?_, rfl, rfl, rfl⟩
  · have g1 := cellR_get I.len hlc
    have g2 := cellR_get I.len V.rightIn
    simp only [awBackward, canonical_eq hz.1 hz2, V.get_inv _ hz, canonical_eq hy.1 hy2, g2, hset,
      decision_eq hz.1 hz2, setting_setting, setting_eq hy.1 hy2, g1, guard, hfree, if_true, e1, awSwitchInput,
      switchOutput_eq hz hs, switchOutput_eq hy hys, m1, m2, m3, other_eq hy.1 hy2, Option.bind_eq_bind, Option.bind_some,
      Option.pure_def]
  · refine ⟨P', l1, ?_, ?_, ?_, ?_, I.maxIn, fun h => give_ne_none (I.odd h)⟩
    · refine I.L.step hy hys hL ?_ ?_
      · simp only
        rw [c1, if_pos ⟨rfl, rfl⟩]
      · intro y hy
        simp only
        rw [c1, if_neg (fun h => hy h.2)]
    · have hright : cellR r1 right = cellR st.routing right := by
        funext y
        rw [c1, if_neg (fun h => hne h.1.symm)]
      have := I.R.step V.F hy (R' := cellR st.routing right) (by rw [hfy]; exact hs) (by rw [hmate]; exact hR)
        (by rw [hfy]; exact hset) (fun _ _ => rfl)
      rw [hfy] at this
      simp only
      rw [hright]
      exact this
    · intro c y h
      simp only
      rw [c1, if_neg, I.frame c y h]
      rintro ⟨rfl, rfl⟩
      exact h ⟨Or.inl rfl, canon_switch hy hys⟩
    · intro x hx hm
      exact give_ne_none (I.before x hx hm)

/-! ## the search for the next packet -/

theorem search_spec {routed : List Bool} : ∀ m, lo ≤ m → m < lo + routed.length →
    ∃ m', awSearch routed lo m = some m' ∧ lo ≤ m' ∧ m' ≤ m ∧
      (∀ y, m' < y → y ≤ m → routed[y - lo]? = some true) ∧ (m' = lo ∨ routed[m' - lo]? = some false)
  | 0, h1, _ => ⟨0, rfl, h1, le_refl _, by omega, Or.inl (by omega)⟩
  | m + 1, h1, h2 => by
    by_cases hlo : m + 1 > lo
    · have hi : m + 1 - lo < routed.length := by omega
      have hget : routed[m + 1 - lo]? = some routed[m + 1 - lo] := List.getElem?_eq_getElem hi
      cases hb : routed[m + 1 - lo] with
      | true =>
        obtain ⟨m', e, a1, a2, a3, a4⟩ := search_spec (routed := routed) m (by omega) (by omega)
        refine ⟨m', ?_, a1, by omega, ?_, a4⟩
        · rw [awSearch, if_pos hlo, hget, hb]
          simpa using e
        · intro y hy1 hy2
          by_cases h : y = m + 1
          · rw [h, hget, hb]
          · exact a3 y hy1 (by omega)
      | false =>
        refine ⟨m + 1, ?_, h1, le_refl _, by omega, Or.inr (by rw [hget, hb])⟩
        rw [awSearch, if_pos hlo, hget, hb]
        simp
    · exact ⟨m + 1, by rw [awSearch, if_neg hlo], h1, le_refl _, by omega, Or.inl (by omega)⟩

/-- what follows a step that goes on from the left -/
theorem continue_spec (V : Lvl n lo left right cols f g p inv) (I : Inv n lo left right cols f g r0 side pend st)
    (ht : In n lo st.toRoute) (hl : st.routeLeft = true) :
    (side st.toRoute = none ∧ awContinue lo st = some (st, true)) ∨
    (side st.toRoute ≠ none ∧ ∃ m, In n lo m ∧ m ≤ st.maxUnrouted ∧
      (∀ y, In n lo y → m < y → side y ≠ none) ∧
      ((side m = none ∧ awContinue lo st = some ({ st with maxUnrouted := m, toRoute := m, routeLeft := true }, true)) ∨
        ((∀ y, In n lo y → side y ≠ none) ∧ awContinue lo st = some ({ st with maxUnrouted := m }, false)))) := by
  have hlen := I.P.len
  have h3 := V.three
  have hmax := I.maxIn
  have hr := I.P.routedIff _ ht
  by_cases hn : side st.toRoute = none
  · left
    refine ⟨hn, ?_⟩
    rw [hn] at hr
    rw [awContinue, if_neg (by simp [hl]), hr]
    simp
  · right
    refine ⟨hn, ?_⟩
    obtain ⟨b, hb⟩ := Option.ne_none_iff_exists'.1 hn
    rw [hb] at hr
    obtain ⟨m, e, a1, a2, a3, a4⟩ := search_spec (routed := st.lhsRouted) st.maxUnrouted hmax.1 (by
      have := hmax.2; omega)
    have hm : In n lo m := ⟨a1, lt_of_le_of_lt a2 hmax.2⟩
    have habove : ∀ y, In n lo y → m < y → side y ≠ none := by
      intro y hy hlt
      by_cases h : y ≤ st.maxUnrouted
      · have := a3 y hlt h
        rw [I.P.routedIff y hy] at this
        intro hc
        rw [hc] at this
        cases this
      · exact I.before y hy (by omega)
    refine ⟨m, hm, a2, habove, ?_⟩
    have hstart : awContinue lo st = (do
        let r0 ← st.lhsRouted[0]?
        if m = lo ∧ r0 = true then pure ({ st with maxUnrouted := m }, false)
        else pure ({ st with maxUnrouted := m, toRoute := m, routeLeft := true }, true)) := by
      rw [awContinue, if_neg (by simp [hl]), hr]
      simp only [Option.isSome_some, Option.bind_eq_bind, Option.bind_some, e]
      rw [if_neg (by simp), if_neg (by omega)]
    have h0 := I.P.routedIff lo ⟨le_refl _, by omega⟩
    rw [Nat.sub_self] at h0
    rw [hstart, h0]
    simp only [Option.bind_eq_bind, Option.bind_some, Option.pure_def]
    by_cases hmn : side m = none
    · left
      refine ⟨hmn, ?_⟩
      rw [if_neg]
      rintro ⟨rfl, h⟩
      rw [hmn] at h
      cases h
    · right
      have hmlo : m = lo := by
        rcases a4 with h | h
        · exact h
        · rw [I.P.routedIff m hm] at h
          obtain ⟨c, hc⟩ := Option.ne_none_iff_exists'.1 hmn
          rw [hc] at h
          cases h
      refine ⟨?_, ?_⟩
      · intro y hy
        by_cases h : y = m
        · rw [h]; exact hmn
        · exact habove y hy (by have := hy.1; omega)
      · rw [if_pos]
        refine ⟨hmlo, ?_⟩
        rw [← hmlo]
        obtain ⟨c, hc⟩ := Option.ne_none_iff_exists'.1 hmn
        rw [hc]
        rfl

end Crypto3Zk.Waksman
