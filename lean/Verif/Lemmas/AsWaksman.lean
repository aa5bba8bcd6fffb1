import Verif.Lemmas.AsWaksmanTopology

/-! # The loop of the AS-Waksman router: what a step does -/

namespace Crypto3Zk.Waksman

open Benes (In BPerm)

set_option linter.unusedSectionVars false

/-! ## positions -/

/-- the setting that sends the packet of a row to the top (`true`) or the bottom -/
def setting (lo x : Nat) (b : Bool) : Bool := (x == canon lo x) ^^ b

variable {n lo : Nat} {x y : Nat}

theorem canonical_eq (hx : lo ≤ x) (hx' : x < 2 ^ 64) : awCanonical lo x = canon lo x := by
  unfold awCanonical canon
  have h := Benes.and_eq_top 0 (x - lo) (by omega) (by omega)
  rw [Nat.pow_zero] at h
  rw [h, Benes.top, Nat.div_one]
  split <;> omega

theorem setting_eq (hx : lo ≤ x) (hx' : x < 2 ^ 64) (b : Bool) : awSetting lo x b = setting lo x b := by
  rw [awSetting, canonical_eq hx hx', setting]

theorem decision_eq (hx : lo ≤ x) (hx' : x < 2 ^ 64) (b : Bool) : awDecision lo x b = setting lo x b := by
  rw [awDecision, canonical_eq hx hx', setting, Bool.beq_comm]

theorem setting_setting (b : Bool) : setting lo x (setting lo x b) = b := by
  unfold setting; cases (x == canon lo x) <;> simp

theorem other_eq (hx : lo ≤ x) (hx' : x < 2 ^ 64) : awOther lo x = other lo x := by
  rw [awOther, canonical_eq hx hx']
  unfold canon other
  split <;> omega

theorem canon_other (hx : lo ≤ x) : canon lo (other lo x) = canon lo x := by
  unfold canon other
  split <;> omega

theorem other_other (hx : lo ≤ x) : other lo (other lo x) = x := by
  unfold other
  split
  · rw [if_neg (by omega)]; omega
  · rw [if_pos (by omega)]; omega

theorem other_ne (hx : lo ≤ x) : other lo x ≠ x := by
  unfold other
  split <;> omega

theorem le_other (hx : lo ≤ x) : lo ≤ other lo x := by
  unfold other
  split <;> omega

theorem other_in (hx : In n lo x) (hs : ¬ Straight n lo x) : In n lo (other lo x) := by
  unfold In Straight other at *
  split <;> omega

theorem other_straight (hx : In n lo x) : ¬ Straight n lo (other lo x) := by
  unfold In Straight other at *
  split <;> omega

theorem straight_other (hx : In n lo (other lo x)) : ¬ Straight n lo x := by
  unfold In Straight other at *
  split at hx <;> omega

theorem canon_eq_iff (hx : lo ≤ x) (hy : lo ≤ y) : canon lo y = canon lo x ↔ y = x ∨ y = other lo x := by
  unfold canon other
  split <;> omega

theorem setting_other (hx : lo ≤ x) (b : Bool) : setting lo (other lo x) b = setting lo x (!b) := by
  unfold setting
  rw [canon_other hx]
  by_cases h : x = canon lo x
  · have h' : ¬ other lo x = canon lo x := by rw [← h]; exact other_ne hx
    rw [beq_eq_false_iff_ne.2 h', beq_iff_eq.2 h]
    simp
  · have h' : other lo x = canon lo x := by unfold other canon at *; split <;> omega
    rw [beq_eq_false_iff_ne.2 h, beq_iff_eq.2 h']
    simp

theorem setting_inj {b c : Bool} (h : setting lo x b = setting lo x c) : b = c := by
  have := congrArg (setting lo x) h
  rwa [setting_setting, setting_setting] at this

theorem out_in (hx : In n lo x) {b : Bool} (hs : Straight n lo x → b = false) : In n lo (out n lo b x) := by
  unfold In Straight out at *
  cases b
  · simp; omega
  · simp at hs ⊢; omega

theorem out_inj (hx : In n lo x) (hy : In n lo y) {b c : Bool} (hs : Straight n lo x → b = false)
    (hs' : Straight n lo y → c = false) (h : out n lo b x = out n lo c y) : c = b ∧ (y = x ∨ y = other lo x) := by
  unfold In Straight out other at *
  cases b <;> cases c <;> simp at h hs hs' ⊢ <;> (try split) <;> omega

theorem out_half (hx : In n lo x) {b : Bool} (hs : Straight n lo x → b = false) : out n lo b x < lo + n / 2 ↔ b = true := by
  unfold In Straight out at *
  cases b
  · simp
  · simp at hs ⊢; omega

theorem out_last (h2 : 2 ≤ n) : out n lo false (lo + n - 1) = lo + n - 1 := by
  unfold out
  simp
  omega

theorem switchOutput_eq (hx : In n lo x) (hs : ¬ Straight n lo x) (b : Bool) :
    awSwitchOutput n lo (canon lo x) b = some (out n lo b x) := by
  unfold awSwitchOutput out canon awTopHeight
  unfold In Straight at *
  simp only
  rw [if_pos (by omega)]
  have e : (lo + 2 * ((x - lo) / 2) - lo) / 2 = (x - lo) / 2 := by omega
  rw [e]

theorem canon_in (hx : In n lo x) : In n lo (canon lo x) := by
  unfold In canon at *; omega

/-! ## settings -/

/-- what a column of the routing holds for a row -/
def cellR (r : AsWaksmanRouting) (c y : Nat) : Option Bool := (r.getD c fun _ => none) y

theorem cellR_get {r : AsWaksmanRouting} {cols : Nat} (hr : r.length = cols) {c : Nat} (hc : c < cols) :
    r[c]? = some (cellR r c) := by
  unfold cellR
  rw [List.getD_eq_getElem?_getD, List.getElem?_eq_getElem (by omega), Option.getD_some]

theorem assign_spec {r : AsWaksmanRouting} {cols : Nat} (hr : r.length = cols) {c : Nat} (hc : c < cols) (y : Nat)
    (v : Bool) : ∃ r', awAssign r c y v = some r' ∧ r'.length = cols ∧
      ∀ c' y', cellR r' c' y' = if c' = c ∧ y' = y then some v else cellR r c' y' := by
  refine ⟨r.set c fun k => if k = y then some v else cellR r c k, ?_, by simp [hr], ?_⟩
  · rw [awAssign, cellR_get hr hc]
    rfl
  · intro c' y'
    unfold cellR
    simp only [List.getD_eq_getElem?_getD, List.getElem?_set]
    by_cases h : c = c'
    · subst h
      simp only [if_true, true_and]
      rw [if_pos (by omega), Option.getD_some]
    · rw [if_neg h, if_neg (fun h' => h h'.1.symm)]

theorem erase_spec {r : AsWaksmanRouting} {cols : Nat} (hr : r.length = cols) {c : Nat} (hc : c < cols) (y : Nat) :
    ∃ r', awErase r c y = some r' ∧ r'.length = cols ∧
      ∀ c' y', cellR r' c' y' = if c' = c ∧ y' = y then none else cellR r c' y' := by
  refine ⟨r.set c fun k => if k = y then none else cellR r c k, ?_, by simp [hr], ?_⟩
  · rw [awErase, cellR_get hr hc]
    rfl
  · intro c' y'
    unfold cellR
    simp only [List.getD_eq_getElem?_getD, List.getElem?_set]
    by_cases h : c = c'
    · subst h
      simp only [if_true, true_and]
      rw [if_pos (by omega), Option.getD_some]
    · rw [if_neg h, if_neg (fun h' => h h'.1.symm)]

/-! ## a permutation object under construction -/

/-- an object on the interval of the network -/
def OnRange (n lo : Nat) (p : IntPerm) : Prop := p.WF ∧ p.minElement = lo ∧ p.maxElement = lo + n - 1

theorem perm_set {p : IntPerm} (hp : OnRange n lo p) (hx : In n lo x) (v : Nat) :
    ∃ q, p.set x v = some q ∧ OnRange n lo q ∧ q.get x = some v ∧ ∀ y, In n lo y → y ≠ x → q.get y = p.get y := by
  obtain ⟨⟨w1, w2⟩, h1, h2⟩ := hp
  have hx1 := hx.1
  have hx2 := hx.2
  rw [h1, h2] at w1 w2
  refine ⟨{ p with contents := p.contents.set (x - p.minElement) v }, ?_, ⟨⟨?_, ?_⟩, h1, h2⟩, ?_, ?_⟩
  · rw [IntPerm.set, if_pos ⟨by omega, by omega⟩, if_pos (by omega)]
  · simp only; omega
  · simp only [List.length_set]; rw [w2, h1, h2]
  · simp only [IntPerm.get]
    rw [if_pos ⟨by omega, by omega⟩, List.getElem?_set_self (by omega)]
  · intro y hy hne
    have hy1 := hy.1
    simp only [IntPerm.get]
    by_cases hr : p.minElement ≤ y ∧ y ≤ p.maxElement
    · rw [if_pos hr, if_pos hr, List.getElem?_set_ne (by omega)]
    · rw [if_neg hr, if_neg hr]

theorem mark_spec {l : List Bool} (hl : l.length = n) (hx : In n lo x) :
    ∃ l', awMark l (x - lo) = some l' ∧ l'.length = n ∧
      ∀ y, In n lo y → l'[y - lo]? = if y = x then some true else l[y - lo]? := by
  have hx1 := hx.1
  have hx2 := hx.2
  refine ⟨l.set (x - lo) true, by rw [awMark, if_pos (by omega)], by simp [hl], ?_⟩
  intro y hy
  have hy1 := hy.1
  split
  · rename_i h
    rw [h, List.getElem?_set_self (by omega)]
  · rw [List.getElem?_set_ne (by omega)]

/-! ## what the state says about the sides of the packets -/

variable {f g : Nat → Nat} {side : Nat → Option Bool} {pend : Bool}

/-- the functions of a permutation of the interval -/
structure Fun (n lo : Nat) (f g : Nat → Nat) : Prop where
  f_in : ∀ x, In n lo x → In n lo (f x)
  g_in : ∀ x, In n lo x → In n lo (g x)
  gf : ∀ x, In n lo x → g (f x) = x
  fg : ∀ x, In n lo x → f (g x) = x

/-- the packet that shares the right switch -/
def mate (lo : Nat) (f g : Nat → Nat) (x : Nat) : Nat := g (other lo (f x))

/-- the permutations of the subnetworks -/
structure FilledP (n lo : Nat) (f : Nat → Nat) (side : Nat → Option Bool) (routed : List Bool) (np npi : IntPerm) :
    Prop where
  len : routed.length = n
  routedIff : ∀ x, In n lo x → routed[x - lo]? = some (side x).isSome
  npOn : OnRange n lo np
  npiOn : OnRange n lo npi
  npGet : ∀ x b, In n lo x → side x = some b → np.get (out n lo b x) = some (out n lo b (f x)) ∧
    npi.get (out n lo b (f x)) = some (out n lo b x)
  strL : ∀ x b, Straight n lo x → side x = some b → b = false
  strR : ∀ x b, Straight n lo (f x) → side x = some b → b = false

/-- the settings of the left column -/
structure FilledL (n lo : Nat) (side : Nat → Option Bool) (L : Nat → Option Bool) : Prop where
  left : ∀ x b, In n lo x → ¬ Straight n lo x → side x = some b → L (canon lo x) = some (setting lo x b)
  leftNew : ∀ x, In n lo x → ¬ Straight n lo x → side x = none → side (other lo x) = none →
    L (canon lo x) = if n % 2 = 0 ∧ lo + n - 2 ≤ x then some false else none

/-- the settings of the right column; `pend` tells that the packet of the last output was routed, but its switch
not set. -/
structure FilledR (n lo : Nat) (f g : Nat → Nat) (side : Nat → Option Bool) (pend : Bool) (R : Nat → Option Bool) :
    Prop where
  right : ∀ x b, In n lo x → ¬ Straight n lo (f x) → side x = some b → (f x = lo + n - 1 → pend = false) →
    R (canon lo (f x)) = some (setting lo (f x) b)
  rightNew : ∀ x, In n lo x → ¬ Straight n lo (f x) → side x = none →
    (side (mate lo f g x) = none ∨ (pend = true ∧ other lo (f x) = lo + n - 1)) → R (canon lo (f x)) = none

/-- the sides after one more packet -/
def give (side : Nat → Option Bool) (x : Nat) (b : Bool) : Nat → Option Bool := fun y => if y = x then some b else side y

theorem give_self (b : Bool) : give side x b x = some b := by simp [give]
theorem give_ne (b : Bool) (h : y ≠ x) : give side x b y = side y := by simp [give, h]

theorem FilledP.step (F : Fun n lo f g) {routed : List Bool} {np npi : IntPerm} (P : FilledP n lo f side routed np npi)
    (hx : In n lo x) {b : Bool} (hsx : side x = none ∨ side x = some b) (h1 : Straight n lo x → b = false)
    (h2 : Straight n lo (f x) → b = false) (hL : ¬ Straight n lo x → ∀ c, side (other lo x) = some c → c = !b)
    (hR : ¬ Straight n lo (f x) → ∀ c, side (mate lo f g x) = some c → c = !b) :
    ∃ routed' np' npi', awMark routed (x - lo) = some routed' ∧
      np.set (out n lo b x) (out n lo b (f x)) = some np' ∧ npi.set (out n lo b (f x)) (out n lo b x) = some npi' ∧
      FilledP n lo f (give side x b) routed' np' npi' := by
  have hfx := F.f_in x hx
  obtain ⟨routed', m1, m2, m3⟩ := mark_spec P.len hx
  obtain ⟨np', a1, a2, a3, a4⟩ := perm_set P.npOn (out_in hx h1) (out n lo b (f x))
  obtain ⟨npi', b1, b2, b3, b4⟩ := perm_set P.npiOn (out_in hfx h2) (out n lo b x)
  refine ⟨routed', np', npi', m1, a1, b1, m2, ?_, a2, b2, ?_, ?_, ?_⟩
  · intro y hy
    rw [m3 y hy]
    by_cases h : y = x
    · rw [if_pos h, h, give_self]; rfl
    · rw [if_neg h, give_ne b h, P.routedIff y hy]
  · intro y c hy hc
    by_cases h : y = x
    · subst h
      rw [give_self] at hc
      obtain rfl := Option.some.inj hc
      exact ⟨a3, b3⟩
    · rw [give_ne b h] at hc
      obtain ⟨g1, g2⟩ := P.npGet y c hy hc
      have hs1 : Straight n lo y → c = false := fun hs => P.strL y c hs hc
      have hs2 : Straight n lo (f y) → c = false := fun hs => P.strR y c hs hc
      constructor
      · rw [a4 _ (out_in hy hs1) ?_, g1]
        intro he
        obtain ⟨rfl, rfl | rfl⟩ := out_inj hx hy h1 hs1 he.symm
        · exact h rfl
        · have := hL (straight_other hy) c hc
          cases c <;> simp at this
      · rw [b4 _ (out_in (F.f_in y hy) hs2) ?_, g2]
        intro he
        obtain ⟨rfl, e | e⟩ := out_inj hfx (F.f_in y hy) h2 hs2 he.symm
        · exact h (by rw [← F.gf y hy, e, F.gf x hx])
        · have : mate lo f g x = y := by rw [mate, ← e, F.gf y hy]
          have := hR (straight_other (by rw [← e]; exact F.f_in y hy)) c (by rw [this]; exact hc)
          cases c <;> simp at this
  · intro y c hs hc
    by_cases h : y = x
    · subst h
      rw [give_self] at hc
      rw [← Option.some.inj hc]
      exact h1 hs
    · rw [give_ne b h] at hc
      exact P.strL y c hs hc
  · intro y c hs hc
    by_cases h : y = x
    · subst h
      rw [give_self] at hc
      rw [← Option.some.inj hc]
      exact h2 hs
    · rw [give_ne b h] at hc
      exact P.strR y c hs hc

theorem FilledL.step {L L' : Nat → Option Bool} (P : FilledL n lo side L) (hx : In n lo x) (hs : ¬ Straight n lo x)
    {b : Bool} (hL : ∀ c, side (other lo x) = some c → c = !b) (h1 : L' (canon lo x) = some (setting lo x b))
    (h2 : ∀ y, y ≠ canon lo x → L' y = L y) : FilledL n lo (give side x b) L' := by
  constructor
  · intro y c hy hsy hc
    by_cases h : y = x
    · subst h
      rw [give_self] at hc
      rw [← Option.some.inj hc]
      exact h1
    · rw [give_ne b h] at hc
      by_cases ho : y = other lo x
      · subst ho
        rw [canon_other hx.1, h1, setting_other hx.1]
        rw [hL c hc, Bool.not_not]
      · rw [h2 _ (fun he => by
          rcases (canon_eq_iff hx.1 hy.1).1 he with e | e
          · exact h e
          · exact ho e)]
        exact P.left y c hy hsy hc
  · intro y hy hsy hn hno
    have hyx : y ≠ x := by rintro rfl; rw [give_self] at hn; cases hn
    have hyo : other lo y ≠ x := by intro h; rw [h, give_self] at hno; cases hno
    rw [give_ne b hyx] at hn
    rw [give_ne b hyo] at hno
    rw [h2 _ (fun he => by
      rcases (canon_eq_iff hx.1 hy.1).1 he with e | e
      · exact hyx e
      · exact hyo (by rw [e, other_other hx.1]))]
    exact P.leftNew y hy hsy hn hno

/-- a straight wire on the left -/
theorem FilledL.straight {L : Nat → Option Bool} (P : FilledL n lo side L) (hs : Straight n lo x) {b : Bool} :
    FilledL n lo (give side x b) L := by
  constructor
  · intro y c hy hsy hc
    have h : y ≠ x := by rintro rfl; exact hsy hs
    rw [give_ne b h] at hc
    exact P.left y c hy hsy hc
  · intro y hy hsy hn hno
    have hyx : y ≠ x := by rintro rfl; exact hsy hs
    have hyo : other lo y ≠ x := by rintro rfl; exact other_straight hy hs
    rw [give_ne b hyx] at hn
    rw [give_ne b hyo] at hno
    exact P.leftNew y hy hsy hn hno

theorem mate_in (F : Fun n lo f g) (hx : In n lo x) (hs : ¬ Straight n lo (f x)) : In n lo (mate lo f g x) :=
  F.g_in _ (other_in (F.f_in x hx) hs)

theorem f_mate (F : Fun n lo f g) (hx : In n lo x) (hs : ¬ Straight n lo (f x)) : f (mate lo f g x) = other lo (f x) :=
  F.fg _ (other_in (F.f_in x hx) hs)

theorem mate_mate (F : Fun n lo f g) (hx : In n lo x) (hs : ¬ Straight n lo (f x)) :
    mate lo f g (mate lo f g x) = x := by
  rw [mate, f_mate F hx hs, other_other (F.f_in x hx).1, F.gf x hx]

theorem mate_ne (F : Fun n lo f g) (hx : In n lo x) (hs : ¬ Straight n lo (f x)) : mate lo f g x ≠ x := by
  intro h
  have := f_mate F hx hs
  rw [h] at this
  exact other_ne (F.f_in x hx).1 this.symm

theorem FilledR.step (F : Fun n lo f g) {R R' : Nat → Option Bool} (P : FilledR n lo f g side pend R) (hx : In n lo x)
    (hs : ¬ Straight n lo (f x)) {b : Bool} (hR : ∀ c, side (mate lo f g x) = some c → c = !b)
    (h1 : R' (canon lo (f x)) = some (setting lo (f x) b)) (h2 : ∀ y, y ≠ canon lo (f x) → R' y = R y) :
    FilledR n lo f g (give side x b) (pend && (f x != lo + n - 1) && (other lo (f x) != lo + n - 1)) R' := by
  have hfx := F.f_in x hx
  constructor
  · intro y c hy hsy hc hp
    by_cases h : y = x
    · subst h
      rw [give_self] at hc
      rw [← Option.some.inj hc]
      exact h1
    · rw [give_ne b h] at hc
      by_cases ho : y = mate lo f g x
      · subst ho
        rw [f_mate F hx hs, canon_other hfx.1, h1, setting_other hfx.1, hR c hc, Bool.not_not]
      · have hne : canon lo (f y) ≠ canon lo (f x) := by
          intro he
          rcases (canon_eq_iff hfx.1 (F.f_in y hy).1).1 he with e | e
          · exact h (by rw [← F.gf y hy, e, F.gf x hx])
          · exact ho (by rw [mate, ← e, F.gf y hy])
        rw [h2 _ hne]
        refine P.right y c hy hsy hc fun hlast => ?_
        have := hp hlast
        have n1 : f x ≠ lo + n - 1 := fun e => hne (by rw [hlast, e])
        have n2 : other lo (f x) ≠ lo + n - 1 := fun e => hne (by rw [hlast, ← e, canon_other hfx.1])
        simpa [n1, n2] using this
  · intro y hy hsy hn hm
    have hyx : y ≠ x := by rintro rfl; rw [give_self] at hn; cases hn
    rw [give_ne b hyx] at hn
    have hym : y ≠ mate lo f g x := by
      rintro rfl
      rw [mate_mate F hx hs, f_mate F hx hs, other_other hfx.1] at hm
      rcases hm with h | ⟨h, h'⟩
      · rw [give_self] at h; cases h
      · simp [h'] at h
    have hne : canon lo (f y) ≠ canon lo (f x) := by
      intro he
      rcases (canon_eq_iff hfx.1 (F.f_in y hy).1).1 he with e | e
      · exact hyx (by rw [← F.gf y hy, e, F.gf x hx])
      · exact hym (by rw [mate, ← e, F.gf y hy])
    rw [h2 _ hne]
    refine P.rightNew y hy hsy hn ?_
    rcases hm with h | ⟨h, h'⟩
    · left
      have : mate lo f g y ≠ x := by
        rintro rfl
        rw [give_self] at h
        cases h
      rwa [give_ne b this] at h
    · right
      simp only [Bool.and_eq_true] at h
      exact ⟨h.1.1, h'⟩

/-- the straight wire on the right -/
theorem FilledR.straight (F : Fun n lo f g) {R : Nat → Option Bool} (P : FilledR n lo f g side pend R)
    (hs : Straight n lo (f x)) {b : Bool} : FilledR n lo f g (give side x b) pend R := by
  constructor
  · intro y c hy hsy hc hp
    have h : y ≠ x := by rintro rfl; exact hsy hs
    rw [give_ne b h] at hc
    exact P.right y c hy hsy hc hp
  · intro y hy hsy hn hm
    have hyx : y ≠ x := by rintro rfl; exact hsy hs
    rw [give_ne b hyx] at hn
    refine P.rightNew y hy hsy hn ?_
    rcases hm with h | h
    · left
      have : mate lo f g y ≠ x := by
        rintro rfl
        rw [f_mate F hy hsy] at hs
        exact other_straight (F.f_in y hy) hs
      rwa [give_ne b this] at h
    · exact Or.inr h

/-- the packet of the last output, if its switch is left open -/
theorem FilledR.pending (F : Fun n lo f g) {R : Nat → Option Bool} (P : FilledR n lo f g side pend R) (hx : In n lo x)
    (hf : f x = lo + n - 1) (hs : ¬ Straight n lo (f x)) (hn : side x = none) (hm : side (mate lo f g x) = none) {b : Bool} :
    FilledR n lo f g (give side x b) true R := by
  constructor
  · intro y c hy hsy hc hp
    have hyx : y ≠ x := by rintro rfl; exact absurd (hp hf) (by simp)
    rw [give_ne b hyx] at hc
    refine P.right y c hy hsy hc fun hlast => ?_
    exact absurd (by rw [← F.gf y hy, hlast, ← hf, F.gf x hx]) hyx
  · intro y hy hsy hn' hm'
    have hyx : y ≠ x := by rintro rfl; rw [give_self] at hn'; cases hn'
    rw [give_ne b hyx] at hn'
    refine P.rightNew y hy hsy hn' (Or.inl ?_)
    by_cases h : mate lo f g y = x
    · rw [h]; exact hn
    · rcases hm' with h' | ⟨-, h'⟩
      · rwa [give_ne b h] at h'
      · exact absurd (by rw [mate, h', ← hf, F.gf x hx]) h

end Crypto3Zk.Waksman
