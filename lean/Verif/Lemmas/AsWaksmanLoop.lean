import Verif.Lemmas.AsWaksmanStep

/-! # The loop of the AS-Waksman router: the whole loop -/

namespace Crypto3Zk.Waksman

open Benes (In BPerm)

set_option linter.unusedSectionVars false

variable {n lo left right cols : Nat} {f g : Nat → Nat} {r0 : AsWaksmanRouting} {side : Nat → Option Bool} {pend : Bool}
  {x y w z : Nat} {st : AwState} {p inv : IntPerm}

/-- left switches of which one packet is routed have one of the packets `E` -/
def ClosedL (n lo : Nat) (side : Nat → Option Bool) (E : Nat → Prop) : Prop :=
  ∀ x, In n lo x → ¬ Straight n lo x → side x ≠ none → side (other lo x) = none → E x

/-- the same for right switches -/
def ClosedR (n lo : Nat) (f g : Nat → Nat) (side : Nat → Option Bool) (E : Nat → Prop) : Prop :=
  ∀ x, In n lo x → ¬ Straight n lo (f x) → side x ≠ none → side (mate lo f g x) = none → E x

/-- the packet at which the current path began, if it did not begin at the straight wire on the left -/
def Anchor (n lo : Nat) (g : Nat → Nat) (side : Nat → Option Bool) (max : Nat) : Option Nat → Prop
  | none => n % 2 = 1 ∧ side (g (lo + n - 1)) = none
  | some m => m = max ∧ In n lo m ∧ (m - lo) % 2 = 1 ∧ side m = some false ∧ side (other lo m) = none ∧
      (n % 2 = 1 → side (g (lo + n - 1)) ≠ none)

/-- the last packet goes to the bottom -/
def LastL (n lo : Nat) (side : Nat → Option Bool) : Prop := n % 2 = 0 → side (lo + n - 1) = some false

/-- the packet of the straight wire on the right is routed -/
def LastR (n lo : Nat) (g : Nat → Nat) (side : Nat → Option Bool) : Prop := n % 2 = 1 → side (g (lo + n - 1)) ≠ none

/-- about to start a new path -/
structure Fresh (n lo : Nat) (f g : Nat → Nat) (side : Nat → Option Bool) (pend : Bool) (max w : Nat) : Prop where
  pendF : pend = false
  closedL : ClosedL n lo side fun _ => False
  closedR : ClosedR n lo f g side fun _ => False
  isMax : w = max
  parity : (w - lo) % 2 = 1
  lastR : LastR n lo g side
  lastL : LastL n lo side ∨ (w = lo + n - 1 ∧ n % 2 = 0)

/-- following a path from the left -/
structure Cont (n lo : Nat) (f g : Nat → Nat) (side : Nat → Option Bool) (pend : Bool) (max w : Nat) (A : Option Nat) :
    Prop where
  pendF : pend = false
  partner : side (other lo w) = some true
  closedL : ClosedL n lo side fun x => x = other lo w ∨ A = some x
  closedR : ClosedR n lo f g side fun _ => False
  anchor : Anchor n lo g side max A
  lastL : LastL n lo side

/-- following a path from the left in the other direction -/
structure Rev (n lo : Nat) (f g : Nat → Nat) (side : Nat → Option Bool) (pend : Bool) (w : Nat) : Prop where
  even : n % 2 = 0
  pendT : pend = true
  partner : side (other lo w) = some false
  closedL : ClosedL n lo side fun x => x = other lo w
  closedR : ClosedR n lo f g side fun x => f x = lo + n - 1
  end1 : side (g (lo + n - 1)) = some false
  end2 : side (g (lo + n - 2)) = none
  lastL : LastL n lo side

/-- about to route the packet `w` from the left -/
structure Fwd (n lo : Nat) (f g : Nat → Nat) (side : Nat → Option Bool) (pend : Bool) (max w : Nat) : Prop where
  wIn : In n lo w
  notStraight : ¬ Straight n lo w
  new : side w = none
  mode : Fresh n lo f g side pend max w ∨ (∃ A, Cont n lo f g side pend max w A) ∨ Rev n lo f g side pend w

/-- following a path from the right -/
structure BackN (n lo : Nat) (f g : Nat → Nat) (side : Nat → Option Bool) (pend : Bool) (max z : Nat) (A : Option Nat) :
    Prop where
  pendF : pend = false
  new : side (g z) = none
  partner : side (g (other lo z)) = some false
  closedL : ClosedL n lo side fun x => A = some x
  closedR : ClosedR n lo f g side fun x => x = g (other lo z)
  anchor : Anchor n lo g side max A
  lastL : LastL n lo side

/-- following a path from the right in the other direction -/
structure BackR (n lo : Nat) (f g : Nat → Nat) (side : Nat → Option Bool) (pend : Bool) (z : Nat) : Prop where
  even : n % 2 = 0
  pendT : pend = true
  new : side (g z) = none
  partner : side (g (other lo z)) = some true
  closedL : ClosedL n lo side fun _ => False
  closedR : ClosedR n lo f g side fun x => x = g (other lo z) ∨ f x = lo + n - 1
  end1 : side (g (lo + n - 1)) = some false
  end2 : side (g (lo + n - 2)) = none
  lastL : LastL n lo side

/-- the path in the other direction has met the packet of the last output -/
structure BackLast (n lo : Nat) (f g : Nat → Nat) (side : Nat → Option Bool) (pend : Bool) (z : Nat) : Prop where
  even : n % 2 = 0
  pendF : pend = false
  isLast : z = lo + n - 1
  partner : side (g (other lo z)) = some true
  old : side (g z) = some false
  closedL : ClosedL n lo side fun _ => False
  closedR : ClosedR n lo f g side fun _ => False
  lastL : LastL n lo side

/-- between two iterations -/
inductive Mode (n lo : Nat) (f g : Nat → Nat) (side : Nat → Option Bool) (pend : Bool) (st : AwState) : Nat → Prop
  | fwd : st.routeLeft = true → Fwd n lo f g side pend st.maxUnrouted st.toRoute → Mode n lo f g side pend st 0
  | backN (A : Option Nat) : st.routeLeft = false → In n lo st.toRoute → ¬ Straight n lo st.toRoute →
      BackN n lo f g side pend st.maxUnrouted st.toRoute A → Mode n lo f g side pend st 0
  | backR : st.routeLeft = false → In n lo st.toRoute → ¬ Straight n lo st.toRoute →
      BackR n lo f g side pend st.toRoute → Mode n lo f g side pend st 0
  | backLast : st.routeLeft = false → In n lo st.toRoute → ¬ Straight n lo st.toRoute →
      BackLast n lo f g side pend st.toRoute → Mode n lo f g side pend st 1

/-! ## closedness -/

theorem ClosedL.routed {E : Nat → Prop} {b : Bool} (hx : In n lo x) (hC : ClosedL n lo side E) :
    ClosedL n lo (give side x b) fun y => y = x ∨ (E y ∧ y ≠ other lo x) := by
  intro y hy hs h1 h2
  by_cases h : y = x
  · exact Or.inl h
  · right
    rw [give_ne b h] at h1
    have ho : other lo y ≠ x := by intro e; rw [e, give_self] at h2; cases h2
    rw [give_ne b ho] at h2
    exact ⟨hC y hy hs h1 h2, fun e => ho (by rw [e, other_other hx.1])⟩

theorem ClosedR.routed (F : Fun n lo f g) {E : Nat → Prop} {b : Bool} (hx : In n lo x) (hsx : ¬ Straight n lo (f x))
    (hC : ClosedR n lo f g side E) :
    ClosedR n lo f g (give side x b) fun y => y = x ∨ (E y ∧ y ≠ mate lo f g x) := by
  intro y hy hs h1 h2
  by_cases h : y = x
  · exact Or.inl h
  · right
    rw [give_ne b h] at h1
    have ho : mate lo f g y ≠ x := by intro e; rw [e, give_self] at h2; cases h2
    rw [give_ne b ho] at h2
    exact ⟨hC y hy hs h1 h2, fun e => ho (by rw [e, mate_mate F hx hsx])⟩

theorem ClosedR.routedS {E : Nat → Prop} {b : Bool} (hsx : Straight n lo (f x)) (hC : ClosedR n lo f g side E) :
    ClosedR n lo f g (give side x b) E := by
  intro y hy hs h1 h2
  have h : y ≠ x := by rintro rfl; exact hs hsx
  rw [give_ne b h] at h1
  have ho : mate lo f g y ≠ x := by intro e; rw [e, give_self] at h2; cases h2
  rw [give_ne b ho] at h2
  exact hC y hy hs h1 h2

theorem ClosedL.other_new (hC : ClosedL n lo side fun _ => False) (hx : In n lo x) (hs : ¬ Straight n lo x)
    (h : side x = none) : side (other lo x) = none := by
  by_contra hc
  exact hC _ (other_in hx hs) (other_straight hx) hc (by rw [other_other hx.1]; exact h)

theorem ClosedR.mate_new (F : Fun n lo f g) (hC : ClosedR n lo f g side fun _ => False) (hx : In n lo x)
    (hs : ¬ Straight n lo (f x)) (h : side x = none) : side (mate lo f g x) = none := by
  by_contra hc
  exact hC _ (mate_in F hx hs) (by rw [f_mate F hx hs]; exact other_straight (F.f_in x hx)) hc
    (by rw [mate_mate F hx hs]; exact h)

theorem lastL_give {b : Bool} (h : LastL n lo side) (hn : side x = none) : LastL n lo (give side x b) := by
  intro he
  rw [give_ne b]
  · exact h he
  · rintro rfl
    rw [h he] at hn
    cases hn

/-- all paths are finished: a new one starts, or the loop ends. -/
theorem closed_next (V : Lvl n lo left right cols f g p inv) (I : Inv n lo left right cols f g r0 side false st)
    (ht : In n lo st.toRoute) (hl : st.routeLeft = true) (hmax : side st.toRoute = none → st.toRoute = st.maxUnrouted)
    (c1 : ClosedL n lo side fun _ => False) (c2 : ClosedR n lo f g side fun _ => False) (l1 : LastL n lo side)
    (l2 : LastR n lo g side) :
    ∃ st' c, awContinue lo st = some (st', c) ∧ Inv n lo left right cols f g r0 side false st' ∧
      if c then Mode n lo f g side false st' 0 else ∀ x, In n lo x → side x ≠ none := by
  have hstr : ∀ m, In n lo m → side m = none → ¬ Straight n lo m := by
    rintro m hm hn ⟨h1, rfl⟩
    exact I.odd h1 hn
  have hpar : ∀ m, In n lo m → side m = none → (∀ y, In n lo y → m < y → side y ≠ none) → (m - lo) % 2 = 1 := by
    intro m hm hn hab
    by_contra hp
    have h1 := c1.other_new hm (hstr m hm hn) hn
    have h2 := other_in hm (hstr m hm hn)
    have h3 : m < other lo m := by rw [other, if_pos (by omega)]; omega
    exact hab _ h2 h3 h1
  rcases continue_spec V I ht hl with ⟨hn, e⟩ | ⟨hn, m, hm, hle, hab, ⟨hmn, e⟩ | ⟨hall, e⟩⟩
  · refine ⟨st, true, e, I, ?_⟩
    rw [if_pos rfl]
    exact .fwd hl ⟨ht, hstr _ ht hn, hn, Or.inl ⟨rfl, c1, c2, hmax hn, hpar _ ht hn (by
      rw [hmax hn]; exact I.before), l2, Or.inl l1⟩⟩
  · refine ⟨_, true, e, ⟨I.P, I.len, I.L, I.R, I.frame, hab, hm, I.odd⟩, ?_⟩
    rw [if_pos rfl]
    exact .fwd rfl ⟨hm, hstr _ hm hmn, hmn, Or.inl ⟨rfl, c1, c2, rfl, hpar _ hm hmn hab, l2, Or.inl l1⟩⟩
  · refine ⟨_, false, e, ⟨I.P, I.len, I.L, I.R, I.frame, hab, hm, I.odd⟩, ?_⟩
    rw [if_neg (by simp)]
    exact hall

theorem continue_right (h : st.routeLeft = false) : awContinue lo st = some (st, true) := by
  rw [awContinue, if_pos h]

/-- what an iteration leaves: the sides, and how many packets it routed -/
def Next (n lo left right cols : Nat) (f g : Nat → Nat) (r0 : AsWaksmanRouting) (side : Nat → Option Bool) (x : Nat)
    (k : Nat) (body : Option (AwState × Bool)) : Prop :=
  ∃ b pend' st' c, body = some (st', c) ∧ Inv n lo left right cols f g r0 (give side x b) pend' st' ∧
    if c then ∃ j, j ≤ k ∧ Mode n lo f g (give side x b) pend' st' j
    else pend' = false ∧ LastL n lo (give side x b) ∧ ∀ y, In n lo y → give side x b y ≠ none

/-- a packet sent to the bottom from the left -/
theorem fwd_common (V : Lvl n lo left right cols f g p inv) (I : Inv n lo left right cols f g r0 side false st)
    (hw : In n lo st.toRoute) (hs : ¬ Straight n lo st.toRoute) (hn : side st.toRoute = none)
    (cR : ClosedR n lo f g side fun _ => False)
    (hb : side (other lo st.toRoute) = some true ∨ (side (other lo st.toRoute) = none ∧ (st.toRoute - lo) % 2 = 1))
    (A : Option Nat) (cL : ClosedL n lo (give side st.toRoute false) fun x => A = some x)
    (hA : match A with
      | none => n % 2 = 1 ∧ side (g (lo + n - 1)) = none
      | some m => m = st.maxUnrouted ∧ In n lo m ∧ (m - lo) % 2 = 1 ∧ give side st.toRoute false m = some false ∧
          give side st.toRoute false (other lo m) = none ∧ LastR n lo g side)
    (lL : LastL n lo (give side st.toRoute false)) :
    Next n lo left right cols f g r0 side st.toRoute 1
      ((awForward left right lo (lo + n - 1) n p st).bind (awContinue lo)) := by
  have F := V.F
  have h3 := V.three
  have hfw := F.f_in _ hw
  have hhi : In n lo (lo + n - 1) := by unfold In; omega
  by_cases hf : f st.toRoute = lo + n - 1
  · have hgw : g (lo + n - 1) = st.toRoute := by rw [← hf, F.gf _ hw]
    by_cases hpar : n % 2 = 0
    · have hns : ¬ Straight n lo (f st.toRoute) := by rintro ⟨h, -⟩; omega
      have hm : side (mate lo f g st.toRoute) = none := cR.mate_new F hw hns hn
      obtain ⟨st', e, I', t1, t2, t3⟩ := forward_last V I hw hs hn hb hf (fun _ => hm)
      rw [if_pos hpar] at I'
      cases A with
      | none => have := hA.1; omega
      | some m =>
        obtain ⟨rfl, hmIn, hmp, hm1, hm2, -⟩ := hA
        have hom : other lo st.maxUnrouted = st.maxUnrouted - 1 := by rw [other, if_neg (by omega)]
        have homIn : In n lo (other lo st.maxUnrouted) := by rw [hom]; unfold In at *; omega
        have hmr : give side st.toRoute false st'.toRoute ≠ none := by rw [t1, hm1]; simp
        rcases continue_spec V I' (by rw [t1]; exact hmIn) t2 with ⟨h, -⟩ | ⟨-, m', hm', hle, hab, ⟨hm'n, e'⟩ | ⟨hall, -⟩⟩
        · exact absurd h hmr
        · have hm'eq : m' = other lo st.maxUnrouted := by
            rw [hom]
            have a1 : ¬ m' < st.maxUnrouted - 1 := fun h => hab _ homIn (by rw [hom]; exact h) hm2
            have a2 : m' ≠ st.maxUnrouted := by
              rintro rfl
              rw [hm1] at hm'n
              cases hm'n
            rw [t3] at hle
            omega
          subst hm'eq
          refine ⟨false, true, { st' with maxUnrouted := other lo st.maxUnrouted, toRoute := other lo st.maxUnrouted, routeLeft := true }, true,
            by rw [e]; exact e', ⟨I'.P, I'.len, I'.L, I'.R, I'.frame, hab, homIn, I'.odd⟩, ?_⟩
          rw [if_pos rfl]
          refine ⟨0, by omega, .fwd rfl ⟨homIn, other_straight hmIn, hm2, Or.inr (Or.inr ⟨hpar, rfl, ?_, ?_, ?_, ?_, ?_, lL⟩)⟩⟩
          · simp only
            rw [other_other hmIn.1]
            exact hm1
          · intro x hx hxs h1 h2
            simp only
            rw [other_other hmIn.1]
            have := cL x hx hxs h1 h2
            exact (Option.some.inj this).symm
          · intro x hx hxs h1 h2
            rcases cR.routed F hw hns x hx hxs h1 h2 with rfl | ⟨h, -⟩
            · exact hf
            · exact h.elim
          · rw [hgw, give_self]
          · have : g (lo + n - 2) = mate lo f g st.toRoute := by
              rw [mate, hf, other, if_neg (by omega)]
              congr 1
            rw [this, give_ne _ (mate_ne F hw hns)]
            exact hm
        · exact absurd hm2 (hall _ homIn)
    · obtain ⟨st', e, I', t1, t2, t3⟩ := forward_last V I hw hs hn hb hf (fun h => absurd h hpar)
      rw [if_neg hpar] at I'
      have hA0 : A = none := by
        cases A with
        | none => rfl
        | some m =>
          have := hA.2.2.2.2.2 (by omega)
          rw [hgw] at this
          exact absurd hn this
      subst hA0
      obtain ⟨st'', c, e', I'', hc⟩ := closed_next V I' (by rw [t1]; exact I.maxIn) t2 (fun _ => by rw [t1, t3])
        (fun x hx hxs h1 h2 => by cases cL x hx hxs h1 h2)
        (cR.routedS ⟨by omega, hf⟩) lL (fun _ => by rw [hgw, give_self]; simp)
      refine ⟨false, false, st'', c, by rw [e]; exact e', I'', ?_⟩
      cases c with
      | true => exact ⟨0, by omega, by simpa using hc⟩
      | false => exact ⟨rfl, lL, by simpa using hc⟩
  · have hns : ¬ Straight n lo (f st.toRoute) := fun h => hf h.2
    have hm : side (mate lo f g st.toRoute) = none := cR.mate_new F hw hns hn
    have hb' : side (other lo st.toRoute) = some (!false) ∨
        (side (other lo st.toRoute) = none ∧ (st.toRoute - lo) % 2 = 1 ∧ false = false) := by
      rcases hb with h | ⟨h, h'⟩
      · exact Or.inl h
      · exact Or.inr ⟨h, h', rfl⟩
    obtain ⟨st', e, I', t1, t2, t3⟩ := forward_switch V I hw hs hn hb' hf (Or.inl hm)
      (fun c hc => by rw [hm] at hc; cases hc)
    rw [Bool.false_and] at I'
    refine ⟨false, false, st', true, by rw [e]; exact continue_right t2, I', ?_⟩
    rw [if_pos rfl]
    have hoo : g (other lo (other lo (f st.toRoute))) = st.toRoute := by rw [other_other hfw.1, F.gf _ hw]
    refine ⟨0, by omega, .backN A t2 (by rw [t1]; exact other_in hfw hns) (by rw [t1]; exact other_straight hfw)
      ⟨rfl, ?_, ?_, cL, ?_, ?_, lL⟩⟩
    · rw [t1]
      show give side st.toRoute false (mate lo f g st.toRoute) = none
      rw [give_ne _ (mate_ne F hw hns)]
      exact hm
    · rw [t1, hoo, give_self]
    · intro x hx hxs h1 h2
      rw [t1, hoo]
      rcases cR.routed F hw hns x hx hxs h1 h2 with h | ⟨h, -⟩
      · exact h
      · exact h.elim
    · have hgn : g (lo + n - 1) ≠ st.toRoute := by
        intro h
        exact hf (by rw [← h, F.fg _ hhi])
      cases A with
      | none => exact ⟨hA.1, by rw [give_ne _ hgn]; exact hA.2⟩
      | some m =>
        obtain ⟨a1, a2, a3, a4, a5, a6⟩ := hA
        exact ⟨by rw [t3]; exact a1, a2, a3, a4, a5, fun h => give_ne_none (a6 h)⟩

theorem mode_fwd (V : Lvl n lo left right cols f g p inv) (I : Inv n lo left right cols f g r0 side pend st)
    (W : Fwd n lo f g side pend st.maxUnrouted st.toRoute) :
    Next n lo left right cols f g r0 side st.toRoute 1
      ((awForward left right lo (lo + n - 1) n p st).bind (awContinue lo)) := by
  obtain ⟨hw, hs, hn, hmode⟩ := W
  have F := V.F
  have h3 := V.three
  have hfw := F.f_in _ hw
  have hhi : In n lo (lo + n - 1) := by unfold In; omega
  rcases hmode with M | ⟨A, M⟩ | M
  · obtain ⟨rfl, cL, cR, hmax, hpar, lR, lL⟩ := M
    have ho := cL.other_new hw hs hn
    refine fwd_common V I hw hs hn cR (Or.inr ⟨ho, hpar⟩) (some st.toRoute) ?_ ?_ ?_
    · intro x hx hxs h1 h2
      rcases cL.routed hw x hx hxs h1 h2 with h | ⟨h, -⟩
      · rw [h]
      · exact h.elim
    · refine ⟨hmax, hw, hpar, give_self _, ?_, lR⟩
      rw [give_ne _ (other_ne hw.1)]
      exact ho
    · rcases lL with lL | ⟨h, h'⟩
      · exact lastL_give lL hn
      · intro _
        rw [← h, give_self]
  · obtain ⟨rfl, hpartner, cL, cR, hA, lL⟩ := M
    have hro : give side st.toRoute false (other lo st.toRoute) ≠ none := by
      rw [give_ne _ (other_ne hw.1), hpartner]; simp
    refine fwd_common V I hw hs hn cR (Or.inl hpartner) A ?_ ?_ (lastL_give lL hn)
    · intro x hx hxs h1 h2
      rcases cL.routed hw x hx hxs h1 h2 with h | ⟨h | h, h'⟩
      · rw [h] at h2
        exact absurd h2 hro
      · exact absurd h h'
      · exact h
    · cases A with
      | none => exact hA
      | some m =>
        obtain ⟨a1, a2, a3, a4, a5, a6⟩ := hA
        refine ⟨a1, a2, a3, ?_, ?_, a6⟩
        · rw [give_ne _ (by rintro rfl; rw [hn] at a4; cases a4)]
          exact a4
        · rw [give_ne _ (by
            intro h
            rw [← h, other_other a2.1, a4] at hpartner
            cases hpartner)]
          exact a5
  · obtain ⟨hev, rfl, hpartner, cL, cR, e1, e2, lL⟩ := M
    have hns : ∀ x, ¬ Straight n lo x := by rintro x ⟨h, -⟩; omega
    have hf : f st.toRoute ≠ lo + n - 1 := by
      intro h
      rw [← h, F.gf _ hw, hn] at e1
      cases e1
    have hgn : g (lo + n - 1) ≠ st.toRoute := by
      intro h
      exact hf (by rw [← h, F.fg _ hhi])
    have hmate : side (mate lo f g st.toRoute) ≠ none → other lo (f st.toRoute) = lo + n - 1 := by
      intro h
      have : f (mate lo f g st.toRoute) = lo + n - 1 :=
        cR _ (mate_in F hw (hns _)) (hns _) h (by rw [mate_mate F hw (hns _)]; exact hn)
      rwa [f_mate F hw (hns _)] at this
    obtain ⟨st', e, I', t1, t2, t3⟩ := forward_switch V I hw hs hn (b := true) (Or.inl hpartner) hf
      (by
        by_cases h : side (mate lo f g st.toRoute) = none
        · exact Or.inl h
        · exact Or.inr ⟨rfl, hmate h⟩)
      (by
        intro c hc
        have := hmate (by rw [hc]; simp)
        rw [mate, this, e1] at hc
        exact (Option.some.inj hc).symm)
    have hro : give side st.toRoute true (other lo st.toRoute) ≠ none := by
      rw [give_ne _ (other_ne hw.1), hpartner]; simp
    have cL' : ClosedL n lo (give side st.toRoute true) fun _ => False := by
      intro x hx hxs h1 h2
      rcases cL.routed hw x hx hxs h1 h2 with h | ⟨h, h'⟩
      · rw [h] at h2
        exact hro h2
      · exact h' h
    have cR' := cR.routed F hw (hns _) (b := true)
    have hoo : g (other lo (other lo (f st.toRoute))) = st.toRoute := by rw [other_other hfw.1, F.gf _ hw]
    have hzIn := other_in hfw (hns _)
    by_cases hz : other lo (f st.toRoute) = lo + n - 1
    · have hm : mate lo f g st.toRoute = g (lo + n - 1) := by rw [mate, hz]
      refine ⟨true, _, st', true, by rw [e]; exact continue_right t2, I', ?_⟩
      rw [if_pos rfl]
      refine ⟨1, le_refl _, .backLast t2 (by rw [t1]; exact hzIn) (hns _)
        ⟨hev, by simp [hz], by rw [t1]; exact hz, by rw [t1, hoo, give_self], ?_, cL', ?_, lastL_give lL hn⟩⟩
      · rw [t1, hz, give_ne _ hgn]
        exact e1
      · intro x hx hxs h1 h2
        rcases cR' x hx hxs h1 h2 with h | ⟨h, h'⟩
        · rw [h, hm, give_ne _ hgn, e1] at h2
          cases h2
        · exact h' (by rw [hm, ← h, F.gf _ hx])
    · have hm : side (mate lo f g st.toRoute) = none := by
        by_contra h
        exact hz (hmate h)
      refine ⟨true, _, st', true, by rw [e]; exact continue_right t2, I', ?_⟩
      rw [if_pos rfl]
      refine ⟨0, by omega, .backR t2 (by rw [t1]; exact hzIn) (hns _)
        ⟨hev, by simpa using hz, ?_, by rw [t1, hoo, give_self], cL', ?_, by rw [give_ne _ hgn]; exact e1, ?_,
          lastL_give lL hn⟩⟩
      · rw [t1]
        show give side st.toRoute true (mate lo f g st.toRoute) = none
        rw [give_ne _ (mate_ne F hw (hns _))]
        exact hm
      · intro x hx hxs h1 h2
        rw [t1, hoo]
        rcases cR' x hx hxs h1 h2 with h | ⟨h, -⟩
        · exact Or.inl h
        · exact Or.inr h
      · rw [give_ne _ (by
          intro h
          apply hz
          rw [← h, F.fg _ (by unfold In; omega), other, if_pos (by omega)]
          omega)]
        exact e2

theorem mode_back (V : Lvl n lo left right cols f g p inv) (I : Inv n lo left right cols f g r0 side pend st)
    (hz : In n lo st.toRoute) (hzs : ¬ Straight n lo st.toRoute)
    (M : (∃ A, BackN n lo f g side pend st.maxUnrouted st.toRoute A) ∨ BackR n lo f g side pend st.toRoute ∨
      BackLast n lo f g side pend st.toRoute) :
    Next n lo left right cols f g r0 side (g st.toRoute) 0
      ((awBackward left right lo n inv st).bind (awContinue lo)) := by
  have F := V.F
  have h3 := V.three
  have hy := F.g_in _ hz
  have hhi : In n lo (lo + n - 1) := by unfold In; omega
  have hfy := F.fg _ hz
  have hoz := other_in hz hzs
  have hfoz := F.fg _ hoz
  have hgoz := F.g_in _ hoz
  have hmate : mate lo f g (g st.toRoute) = g (other lo st.toRoute) := by rw [mate, hfy]
  -- the setting on the right comes from the partner
  have hset : ∀ b, side (g (other lo st.toRoute)) = some (!b) → (other lo st.toRoute = lo + n - 1 → pend = false) →
      cellR st.routing right (canon lo st.toRoute) = some (setting lo st.toRoute b) := by
    intro b h h'
    have := I.R.right _ _ hgoz (by rw [hfoz]; exact other_straight hz) h (by rw [hfoz]; exact h')
    rw [hfoz, canon_other hz.1, setting_other hz.1, Bool.not_not] at this
    exact this
  rcases M with ⟨A, M⟩ | M | M
  · obtain ⟨rfl, hn, hpartner, cL, cR, hA, lL⟩ := M
    have hys : ¬ Straight n lo (g st.toRoute) := by
      rintro ⟨h1, h2⟩
      exact I.odd h1 (by rw [← h2]; exact hn)
    have hoy := other_in hy hys
    -- the partner on the left is the beginning of the path
    have hpart : side (other lo (g st.toRoute)) ≠ none → A = some (other lo (g st.toRoute)) := by
      intro h
      exact cL _ hoy (other_straight hy) h (by rw [other_other hy.1]; exact hn)
    have hL : ∀ c, side (other lo (g st.toRoute)) = some c → c = !true := by
      intro c hc
      have := hpart (by rw [hc]; simp)
      subst this
      rw [hA.2.2.2.1] at hc
      exact (Option.some.inj hc).symm
    obtain ⟨st', e, I', t1, t2, t3⟩ := backward_spec V I hz hzs hys (b := true) (Or.inl hn)
      (hset true hpartner (fun _ => rfl))
      (by
        by_cases h : side (other lo (g st.toRoute)) = none
        · rw [I.L.leftNew _ hy hys hn h]
          split
          · rename_i hc
            right
            have hne : g st.toRoute ≠ lo + n - 1 := by
              intro h'
              have := lL hc.1
              rw [← h', hn] at this
              cases this
            have : g st.toRoute = canon lo (g st.toRoute) := by unfold canon In at *; omega
            simp [setting, ← this]
          · exact Or.inl rfl
        · right
          obtain ⟨c, hc⟩ := Option.ne_none_iff_exists'.1 h
          have := I.L.left _ _ hoy (other_straight hy) hc
          rw [canon_other hy.1, setting_other hy.1, hL c hc] at this
          simpa using this)
      hL
      (by
        intro c hc
        rw [hpartner] at hc
        exact (Option.some.inj hc).symm)
    rw [Bool.false_and, Bool.false_and] at I'
    have cR' : ClosedR n lo f g (give side (g st.toRoute) true) fun _ => False := by
      intro x hx hxs h1 h2
      rcases cR.routed F hy (by rw [hfy]; exact hzs) x hx hxs h1 h2 with h | ⟨h, h'⟩
      · rw [h, hmate] at h2
        exact give_ne_none (by rw [hpartner]; simp) h2
      · exact h' (by rw [hmate]; exact h)
    have lL' : LastL n lo (give side (g st.toRoute) true) := lastL_give lL hn
    by_cases hon : side (other lo (g st.toRoute)) = none
    · -- on from the left
      have hon' : give side (g st.toRoute) true (other lo (g st.toRoute)) = none := by
        rw [give_ne _ (other_ne hy.1)]; exact hon
      have hcont : awContinue lo st' = some (st', true) := by
        rcases continue_spec V I' (by rw [t1]; exact hoy) t2 with ⟨-, h⟩ | ⟨h, -⟩
        · exact h
        · rw [t1] at h
          exact absurd hon' h
      refine ⟨true, false, st', true, by rw [e]; exact hcont, I', ?_⟩
      rw [if_pos rfl]
      refine ⟨0, le_refl _, .fwd t2 ⟨by rw [t1]; exact hoy, by rw [t1]; exact other_straight hy, by rw [t1]; exact hon',
        Or.inr (Or.inl ⟨A, rfl, by rw [t1, other_other hy.1, give_self], ?_, cR', ?_, lL'⟩)⟩⟩
      · intro x hx hxs h1 h2
        rw [t1, other_other hy.1]
        rcases cL.routed hy x hx hxs h1 h2 with h | ⟨h, -⟩
        · exact Or.inl h
        · exact Or.inr h
      · cases A with
        | none =>
          refine ⟨hA.1, ?_⟩
          rw [give_ne _ (by
            intro h
            exact hzs ⟨hA.1, by rw [← hfy, ← h, F.fg _ hhi]⟩)]
          exact hA.2
        | some m =>
          obtain ⟨a1, a2, a3, a4, a5, a6⟩ := hA
          refine ⟨by rw [t3]; exact a1, a2, a3, ?_, ?_, fun h => give_ne_none (a6 h)⟩
          · rw [give_ne _ (by rintro rfl; rw [hn] at a4; cases a4)]
            exact a4
          · rw [give_ne _ (by
              intro h
              rw [← h, other_other a2.1, a4] at hon
              cases hon)]
            exact a5
    · -- the path is closed
      have hAe := hpart hon
      subst hAe
      have cL' : ClosedL n lo (give side (g st.toRoute) true) fun _ => False := by
        intro x hx hxs h1 h2
        rcases cL.routed hy x hx hxs h1 h2 with h | ⟨h, h'⟩
        · rw [h] at h2
          exact give_ne_none hon h2
        · exact h' (Option.some.inj h).symm
      obtain ⟨st'', c, e', I'', hc⟩ := closed_next V I' (by rw [t1]; exact hoy) t2
        (fun h => absurd h (by rw [t1]; exact give_ne_none hon)) cL' cR' lL'
        (fun h => give_ne_none (hA.2.2.2.2.2 h))
      refine ⟨true, false, st'', c, by rw [e]; exact e', I'', ?_⟩
      cases c with
      | true => exact ⟨0, le_refl _, by simpa using hc⟩
      | false => exact ⟨rfl, lL', by simpa using hc⟩
  · obtain ⟨hev, rfl, hn, hpartner, cL, cR, e1, e2, lL⟩ := M
    have hns : ∀ x, ¬ Straight n lo x := by rintro x ⟨h, -⟩; omega
    have hz1 : st.toRoute ≠ lo + n - 1 := by
      intro h
      rw [h, e1] at hn
      cases hn
    have hz2 : other lo st.toRoute ≠ lo + n - 1 := by
      intro h
      rw [h, e1] at hpartner
      cases hpartner
    have hon := cL.other_new hy (hns _) hn
    obtain ⟨st', e, I', t1, t2, t3⟩ := backward_spec V I hz hzs (hns _) (b := false) (Or.inl hn)
      (hset false hpartner (fun h => absurd h hz2))
      (by
        left
        rw [I.L.leftNew _ hy (hns _) hn hon, if_neg]
        rintro ⟨-, h⟩
        have hl := lL hev
        have : g st.toRoute = lo + n - 1 ∨ other lo (g st.toRoute) = lo + n - 1 := by
          unfold other In at *
          split <;> omega
        rcases this with h' | h'
        · rw [← h', hn] at hl; cases hl
        · rw [← h', hon] at hl; cases hl)
      (by intro c hc; rw [hon] at hc; cases hc)
      (by
        intro c hc
        rw [hpartner] at hc
        exact (Option.some.inj hc).symm)
    have hon' : give side (g st.toRoute) false (other lo (g st.toRoute)) = none := by
      rw [give_ne _ (other_ne hy.1)]; exact hon
    have hcont : awContinue lo st' = some (st', true) := by
      rcases continue_spec V I' (by rw [t1]; exact other_in hy (hns _)) t2 with ⟨-, h⟩ | ⟨h, -⟩
      · exact h
      · rw [t1] at h
        exact absurd hon' h
    refine ⟨false, _, st', true, by rw [e]; exact hcont, I', ?_⟩
    rw [if_pos rfl]
    refine ⟨0, le_refl _, .fwd t2 ⟨by rw [t1]; exact other_in hy (hns _), hns _, by rw [t1]; exact hon',
      Or.inr (Or.inr ⟨hev, by simp [hz1, hz2], by rw [t1, other_other hy.1, give_self], ?_, ?_, ?_, ?_,
        lastL_give lL hn⟩)⟩⟩
    · intro x hx hxs h1 h2
      rw [t1, other_other hy.1]
      rcases cL.routed hy x hx hxs h1 h2 with h | ⟨h, -⟩
      · exact h
      · exact h.elim
    · intro x hx hxs h1 h2
      rcases cR.routed F hy (hns _) x hx hxs h1 h2 with h | ⟨h | h, h'⟩
      · rw [h, hmate] at h2
        exact absurd h2 (give_ne_none (by rw [hpartner]; simp))
      · exact absurd (by rw [hmate]; exact h) h'
      · exact h
    · rw [give_ne _ (by
        intro h
        exact hz1 (by rw [← hfy, ← h, F.fg _ hhi]))]
      exact e1
    · rw [give_ne _ (by
        intro h
        apply hz2
        rw [← hfy, ← h, F.fg _ (by unfold In; omega), other, if_pos (by omega)]
        omega)]
      exact e2
  · obtain ⟨hev, rfl, hlast, hpartner, hold, cL, cR, lL⟩ := M
    have hns : ∀ x, ¬ Straight n lo x := by rintro x ⟨h, -⟩; omega
    have hor : side (other lo (g st.toRoute)) ≠ none := by
      intro h
      exact cL _ hy (hns _) (by rw [hold]; simp) h
    have hsame : give side (g st.toRoute) false = side := by
      funext x
      by_cases h : x = g st.toRoute
      · rw [h, give_self, hold]
      · rw [give_ne _ h]
    obtain ⟨st', e, I', t1, t2, t3⟩ := backward_spec V I hz hzs (hns _) (b := false) (Or.inr hold)
      (hset false hpartner (fun _ => rfl)) (Or.inr (I.L.left _ _ hy (hns _) hold))
      (by
        intro c hc
        have h1 := I.L.left _ _ hy (hns _) hold
        have h2 := I.L.left _ _ (other_in hy (hns _)) (hns _) hc
        rw [canon_other hy.1, h1, setting_other hy.1] at h2
        have := setting_inj (Option.some.inj h2)
        cases c <;> simp at this ⊢)
      (by
        intro c hc
        rw [hpartner] at hc
        exact (Option.some.inj hc).symm)
    rw [Bool.false_and, Bool.false_and] at I'
    rw [hsame] at I'
    obtain ⟨st'', c, e', I'', hc⟩ := closed_next V I' (by rw [t1]; exact other_in hy (hns _)) t2
      (fun h => absurd h (by rw [t1]; exact hor)) cL cR lL (fun h => by omega)
    refine ⟨false, false, st'', c, by rw [e]; exact e', by rw [hsame]; exact I'', ?_⟩
    rw [hsame]
    cases c with
    | true => exact ⟨0, le_refl _, by simpa using hc⟩
    | false => exact ⟨rfl, lL, by simpa using hc⟩

/-! ## the loop -/

/-- the packets without a side -/
def unrouted (n lo : Nat) (side : Nat → Option Bool) : Finset Nat :=
  (Finset.Ico lo (lo + n)).filter fun x => side x = none

theorem unrouted_le {b : Bool} : (unrouted n lo (give side x b)).card ≤ (unrouted n lo side).card := by
  apply Finset.card_le_card
  intro y hy
  rw [unrouted, Finset.mem_filter] at *
  refine ⟨hy.1, ?_⟩
  by_contra h
  exact give_ne_none h hy.2

theorem unrouted_lt {b : Bool} (hx : In n lo x) (hn : side x = none) :
    (unrouted n lo (give side x b)).card + 1 ≤ (unrouted n lo side).card := by
  have h1 : x ∈ unrouted n lo side := by
    rw [unrouted, Finset.mem_filter, Finset.mem_Ico]
    exact ⟨hx, hn⟩
  have h2 : unrouted n lo (give side x b) ⊆ (unrouted n lo side).erase x := by
    intro y hy
    rw [unrouted, Finset.mem_filter] at hy
    rw [Finset.mem_erase, unrouted, Finset.mem_filter]
    have hyx : y ≠ x := by rintro rfl; rw [give_self] at hy; cases hy.2
    rw [give_ne _ hyx] at hy
    exact ⟨hyx, hy⟩
  have h3 := Finset.card_le_card h2
  have h4 := Finset.card_pos.2 ⟨x, h1⟩
  rw [Finset.card_erase_of_mem h1] at h3
  omega

theorem loop_unfold (fuel : Nat) (st : AwState) (hi : Nat) :
    awLoop left right lo hi n p inv (fuel + 1) st =
      ((if st.routeLeft then awForward left right lo hi n p st else awBackward left right lo n inv st).bind
        (awContinue lo)).bind fun q => if q.2 then awLoop left right lo hi n p inv fuel q.1 else some q.1 := by
  rw [awLoop]
  cases st.routeLeft <;> simp [Option.bind_assoc]

theorem loop_spec (V : Lvl n lo left right cols f g p inv) : ∀ (fuel : Nat) (side : Nat → Option Bool) (pend : Bool)
    (st : AwState) (j : Nat), 2 * (unrouted n lo side).card + j ≤ fuel → Inv n lo left right cols f g r0 side pend st →
    Mode n lo f g side pend st j →
    ∃ side' st', awLoop left right lo (lo + n - 1) n p inv fuel st = some st' ∧
      Inv n lo left right cols f g r0 side' false st' ∧ LastL n lo side' ∧ ∀ y, In n lo y → side' y ≠ none := by
  intro fuel
  induction fuel with
  | zero =>
    intro side pend st j hf I M
    exfalso
    have hpos : ∀ y, In n lo y → side y = none → False := by
      intro y hy hn
      have := unrouted_lt (b := true) hy hn
      omega
    cases M with
    | fwd _ W => exact hpos _ W.wIn W.new
    | backN A _ hz _ W => exact hpos _ (V.F.g_in _ hz) W.new
    | backR _ hz _ W => exact hpos _ (V.F.g_in _ hz) W.new
    | backLast => omega
  | succ fuel ih =>
    intro side pend st j hf I M
    have key : ∃ x k, Next n lo left right cols f g r0 side x k
        ((if st.routeLeft then awForward left right lo (lo + n - 1) n p st else awBackward left right lo n inv st).bind
        (awContinue lo)) ∧ ∀ b, 2 * (unrouted n lo (give side x b)).card + k ≤ fuel := by
      cases M with
      | fwd hl W =>
        refine ⟨st.toRoute, 1, by rw [if_pos hl]; exact mode_fwd V I W, fun b => ?_⟩
        have := unrouted_lt (b := b) W.wIn W.new
        omega
      | backN A hl hz hs W =>
        refine ⟨g st.toRoute, 0, by rw [if_neg (by simp [hl])]; exact mode_back V I hz hs (Or.inl ⟨A, W⟩), fun b => ?_⟩
        have := unrouted_lt (b := b) (V.F.g_in _ hz) W.new
        omega
      | backR hl hz hs W =>
        refine ⟨g st.toRoute, 0, by rw [if_neg (by simp [hl])]; exact mode_back V I hz hs (Or.inr (Or.inl W)), fun b => ?_⟩
        have := unrouted_lt (b := b) (V.F.g_in _ hz) W.new
        omega
      | backLast hl hz hs W =>
        refine ⟨g st.toRoute, 0, by rw [if_neg (by simp [hl])]; exact mode_back V I hz hs (Or.inr (Or.inr W)), fun b => ?_⟩
        have := unrouted_le (n := n) (lo := lo) (side := side) (x := g st.toRoute) (b := b)
        omega
    obtain ⟨x, k, ⟨b, pend', st', c, hbody, I', hc⟩, hcard⟩ := key
    rw [loop_unfold, hbody]
    cases c with
    | true =>
      rw [if_pos rfl] at hc
      obtain ⟨j', hj', M'⟩ := hc
      exact ih _ _ st' j' (by have := hcard b; omega) I' M'
    | false =>
      rw [if_neg (by simp)] at hc
      obtain ⟨rfl, h1, h2⟩ := hc
      exact ⟨_, st', rfl, I', h1, h2⟩

/-! ## the start -/

theorem range_spec (hn : 1 ≤ n) : ∃ q, IntPerm.ofRange lo (lo + n - 1) = some q ∧ OnRange n lo q := by
  refine ⟨_, by rw [IntPerm.ofRange, if_pos (by omega)], ⟨?_, ?_⟩, rfl, rfl⟩
  · simp only; omega
  · simp

theorem init_spec (V : Lvl n lo left right cols f g p inv) (hr : r0.length = cols)
    (hclean : ∀ c y, c = left ∨ c = right → Switch n lo y → cellR r0 c y = none) :
    ∃ side st, awInit left right lo (lo + n - 1) n p r0 = some st ∧
      Inv n lo left right cols f g r0 side false st ∧ Mode n lo f g side false st 0 := by
  have F := V.F
  have h3 := V.three
  have h64 := V.small
  have hlc : left < cols := lt_trans V.leftRight V.rightIn
  have hne : left ≠ right := Nat.ne_of_lt V.leftRight
  have hhi : In n lo (lo + n - 1) := by unfold In; omega
  obtain ⟨np, e1, o1⟩ := range_spec (n := n) (lo := lo) (by omega)
  have P0 : FilledP n lo f (fun _ => none) (List.replicate n false) np np := by
    refine ⟨by simp, ?_, o1, o1, by simp, by simp, by simp⟩
    intro x hx
    have := hx.1
    have := hx.2
    rw [List.getElem?_replicate_of_lt (by omega)]
    rfl
  have R0 : FilledR n lo f g (fun _ => none) false (cellR r0 right) :=
    ⟨by simp, fun x hx hs _ _ => hclean _ _ (Or.inr rfl) (canon_switch (F.f_in x hx) hs)⟩
  by_cases hpar : n % 2 = 1
  · have L0 : FilledL n lo (fun _ => none) (cellR r0 left) := by
      refine ⟨by simp, fun x hx hs _ _ => ?_⟩
      rw [if_neg (by omega)]
      exact hclean _ _ (Or.inl rfl) (canon_switch hx hs)
    have hstr : Straight n lo (lo + n - 1) := ⟨hpar, rfl⟩
    obtain ⟨routed', np', npi', m1, m2, m3, P'⟩ := P0.step F hhi (b := false) (Or.inl rfl) (fun _ => rfl) (fun _ => rfl)
      (fun _ c hc => by cases hc) (fun _ c hc => by cases hc)
    rw [out_last (by omega)] at m2 m3
    have cL : ClosedL n lo (give (fun _ => none) (lo + n - 1) false) fun _ => False := by
      intro x hx hs h1 h2
      by_cases h : x = lo + n - 1
      · exact hs (by rw [h]; exact hstr)
      · rw [give_ne _ h] at h1
        exact h1 rfl
    have lL : LastL n lo (give (fun _ => none) (lo + n - 1) false) := fun h => by omega
    have hab : ∀ x, In n lo x → lo + n - 1 - 1 < x → give (fun _ => none) (lo + n - 1) false x ≠ none := by
      intro x hx hlt
      have : x = lo + n - 1 := by unfold In at hx; omega
      rw [this, give_self]
      simp
    have hmax : In n lo (lo + n - 1 - 1) := by unfold In; omega
    by_cases hf : f (lo + n - 1) = lo + n - 1
    · rw [hf, out_last (by omega)] at m2 m3
      refine ⟨_, ⟨routed', lo + n - 1 - 1, true, lo + n - 1 - 1, np', npi', r0⟩, ?_,
        ⟨P', hr, L0.straight hstr, R0.straight F (by rw [hf]; exact hstr), fun _ _ _ => rfl, hab, hmax,
          fun _ => by rw [give_self]; simp⟩, ?_⟩
      · have hnn : npi' = np' := by rw [m2] at m3; exact (Option.some.inj m3).symm
        rw [hnn]
        simp only [awInit, e1, if_pos hpar, V.get _ hhi, hf, if_true, m1, m2, Option.bind_eq_bind, Option.bind_some,
          Option.pure_def]
      · refine .fwd rfl ⟨hmax, fun h => by have := h.2; simp only at this; omega, ?_,
          Or.inl ⟨rfl, cL, ?_, rfl, ?_, ?_, Or.inl lL⟩⟩
        · rw [give_ne _ (by simp only; omega)]
        · intro x hx hs h1 h2
          by_cases h : x = lo + n - 1
          · exact hs (by rw [h, hf]; exact hstr)
          · rw [give_ne _ h] at h1
            exact h1 rfl
        · simp only; omega
        · intro _
          have : g (lo + n - 1) = lo + n - 1 := by
            have := F.gf _ hhi
            rwa [hf] at this
          rw [this, give_self]
          simp
    · have hfIn := F.f_in _ hhi
      have hf64 : f (lo + n - 1) < 2 ^ 64 := lt_of_lt_of_le hfIn.2 h64
      have hfs : ¬ Straight n lo (f (lo + n - 1)) := fun h => hf h.2
      obtain ⟨r1, e2, l1, c1⟩ := assign_spec hr V.rightIn (canon lo (f (lo + n - 1)))
        (setting lo (f (lo + n - 1)) false)
      have hleft : cellR r1 left = cellR r0 left := by
        funext y
        rw [c1, if_neg (fun h => hne h.1)]
      have hoo : g (other lo (other lo (f (lo + n - 1)))) = lo + n - 1 := by rw [other_other hfIn.1, F.gf _ hhi]
      refine ⟨_, ⟨routed', other lo (f (lo + n - 1)), false, lo + n - 1 - 1, np', npi', r1⟩, ?_,
        ⟨P', l1, by simp only; rw [hleft]; exact L0.straight hstr, ?_, ?_, hab, hmax, fun _ => by rw [give_self]; simp⟩, ?_⟩
      · simp only [awInit, e1, if_pos hpar, V.get _ hhi, if_neg hf, canonical_eq hfIn.1 hf64, setting_eq hfIn.1 hf64, e2,
          awSwitchInput, switchOutput_eq hfIn hfs, other_eq hfIn.1 hf64, m1, m2, m3, Option.bind_eq_bind,
          Option.bind_some, Option.pure_def]
      · have := R0.step F hhi hfs (b := false) (R' := cellR r1 right) (fun c hc => by cases hc)
          (by rw [c1, if_pos ⟨rfl, rfl⟩]) (fun y hy => by rw [c1, if_neg (fun h => hy h.2)])
        rw [Bool.false_and, Bool.false_and] at this
        exact this
      · intro c y h
        simp only
        rw [c1, if_neg]
        rintro ⟨rfl, rfl⟩
        exact h ⟨Or.inr rfl, canon_switch hfIn hfs⟩
      · have hmn : mate lo f g (lo + n - 1) ≠ lo + n - 1 := mate_ne F hhi hfs
        refine .backN none rfl (other_in hfIn hfs) (other_straight hfIn) ⟨rfl, ?_, ?_, ?_, ?_, ?_, lL⟩
        · show give _ _ _ (mate lo f g (lo + n - 1)) = none
          rw [give_ne _ hmn]
        · simp only
          rw [hoo, give_self]
        · intro x hx hs h1 h2
          exact (cL x hx hs h1 h2).elim
        · intro x hx hs h1 h2
          simp only
          rw [hoo]
          by_contra h
          rw [give_ne _ h] at h1
          exact h1 rfl
        · refine ⟨hpar, ?_⟩
          rw [give_ne _ (by
            intro h
            exact hf (by rw [← h, F.fg _ hhi, h]))]
  · obtain ⟨r1, e2, l1, c1⟩ := assign_spec hr hlc (lo + n - 1 - 1) false
    have hright : cellR r1 right = cellR r0 right := by
      funext y
      rw [c1, if_neg (fun h => hne h.1.symm)]
    refine ⟨_, ⟨List.replicate n false, lo + n - 1, true, lo + n - 1, np, np, r1⟩, ?_,
      ⟨P0, l1, ⟨by simp, ?_⟩, by simp only; rw [hright]; exact R0, ?_, ?_, hhi, fun h => absurd h hpar⟩, ?_⟩
    · simp only [awInit, e1, if_neg hpar, e2, Option.bind_eq_bind, Option.bind_some, Option.pure_def]
    · intro x hx hs _ _
      simp only
      rw [c1]
      by_cases h : n % 2 = 0 ∧ lo + n - 2 ≤ x
      · rw [if_pos h, if_pos ⟨rfl, by unfold canon In at *; omega⟩]
      · rw [if_neg h, if_neg (by unfold canon In at *; omega)]
        exact hclean _ _ (Or.inl rfl) (canon_switch hx hs)
    · intro c y h
      simp only
      rw [c1, if_neg]
      rintro ⟨rfl, rfl⟩
      refine h ⟨Or.inl rfl, ?_⟩
      unfold Switch In Straight canon
      omega
    · intro x hx hlt
      unfold In at hx
      simp only at hlt
      omega
    · refine .fwd rfl ⟨hhi, fun h => hpar h.1, rfl, Or.inl ⟨rfl, ?_, ?_, rfl, ?_, fun h => absurd h hpar,
        Or.inr ⟨rfl, by omega⟩⟩⟩
      · intro x _ _ h; exact absurd rfl h
      · intro x _ _ h; exact absurd rfl h
      · simp only; omega

end Crypto3Zk.Waksman
