import Verif.Model.CycleRepresentation
import Mathlib.GroupTheory.Perm.Cycle.Basic
import Mathlib.Dynamics.PeriodicPts.Lemmas
import Mathlib.SetTheory.Cardinal.Finite
import Mathlib.Logic.Relation

namespace Crypto3Zk.CycleRep

open Equiv Equiv.Perm Function


variable {K : Type} [DecidableEq K]

section merge
variable [Finite K]

theorem period_pos (σ : Perm K) (x : K) : 0 < minimalPeriod σ x :=
  minimalPeriod_pos_of_mem_periodicPts
    (σ.injective.mem_periodicPts x)

theorem sameCycle_iff_iterate (σ : Perm K) (x y : K) :
    SameCycle σ x y ↔ ∃ j < minimalPeriod σ x, σ^[j] x = y := by
  constructor
  · intro h
    obtain ⟨n, hn⟩ := h.exists_nat_pow_eq
    refine ⟨n % minimalPeriod σ x, Nat.mod_lt _ (period_pos σ x), ?_⟩
    rw [iterate_mod_minimalPeriod_eq, ← hn, Equiv.Perm.iterate_eq_pow]
  · rintro ⟨j, _, rfl⟩
    exact ⟨j, by simp [Equiv.Perm.iterate_eq_pow]⟩

/-- iterating the merged permutation from `l` walks the cycle of `r` -/
theorem merged_iterate (σ : Perm K) (l r : K) (h : ¬ SameCycle σ r l) (i : Nat)
    (hi : i < minimalPeriod σ r) :
    (σ * swap l r)^[i + 1] l = σ^[i + 1] r := by
  induction i with
  | zero => simp
  | succ i ih =>
    rw [iterate_succ_apply', ih (by omega), iterate_succ_apply']
    rw [Equiv.Perm.mul_apply, swap_apply_of_ne_of_ne]
    · conv_rhs => rw [iterate_succ_apply']
      rw [iterate_succ_apply']
    · intro he
      apply h
      rw [sameCycle_iff_iterate]
      exact ⟨i + 1, hi, by rw [iterate_succ_apply', he]⟩
    · intro he
      have h1 : IsPeriodicPt σ (i + 1) r := by
        change σ^[i + 1] r = r
        rw [iterate_succ_apply', he]
      have := h1.minimalPeriod_le (by omega)
      omega

theorem merged_lr (σ : Perm K) (l r : K) (h : ¬ SameCycle σ r l) :
    SameCycle (σ * swap l r) l r := by
  have hp := period_pos σ r
  have := merged_iterate σ l r h (minimalPeriod σ r - 1) (by omega)
  rw [Nat.sub_add_cancel hp, (isPeriodicPt_minimalPeriod σ r).eq] at this
  refine ⟨(minimalPeriod σ r : ℤ), ?_⟩
  rw [Equiv.Perm.iterate_eq_pow] at this
  rw [zpow_natCast]
  exact this

theorem sameCycle_step (σ : Perm K) (u : K) : SameCycle σ u (σ u) := ⟨1, by simp⟩

theorem sameCycle_of_steps {σ τ : Perm K} (h : ∀ u, SameCycle τ u (σ u)) {u v : K}
    (huv : SameCycle σ u v) : SameCycle τ u v := by
  obtain ⟨n, rfl⟩ := huv.exists_nat_pow_eq
  induction n with
  | zero => exact SameCycle.refl _ _
  | succ n ih =>
    have h1 := ih ⟨n, by simp⟩
    have h2 := h ((σ ^ n) u)
    rw [pow_succ', Equiv.Perm.mul_apply]
    exact h1.trans h2

/-- merging two distinct cycles yields the join of the partitions -/
theorem sameCycle_merged (σ : Perm K) (l r : K) (h : ¬ SameCycle σ r l) (u v : K) :
    SameCycle (σ * swap l r) u v ↔
      Relation.EqvGen (fun a b => SameCycle σ a b ∨ (a = l ∧ b = r)) u v := by
  have hlr := merged_lr σ l r h
  constructor
  · intro huv
    obtain ⟨n, rfl⟩ := huv.exists_nat_pow_eq
    induction n with
    | zero => exact .refl _
    | succ n ih =>
      have h1 := ih ⟨n, by simp⟩
      refine h1.trans _ _ _ ?_
      rw [pow_succ', Equiv.Perm.mul_apply]
      generalize ((σ * swap l r) ^ n) u = w
      rw [Equiv.Perm.mul_apply]
      by_cases hl : w = l
      · subst hl
        rw [swap_apply_left]
        exact (Relation.EqvGen.rel _ _ (.inr ⟨rfl, rfl⟩)).trans _ _ _
          (.rel _ _ (.inl (sameCycle_step σ r)))
      · by_cases hr : w = r
        · subst hr
          rw [swap_apply_right]
          exact (Relation.EqvGen.rel _ _ (.inr ⟨rfl, rfl⟩)).symm.trans _ _ _
            (.rel _ _ (.inl (sameCycle_step σ l)))
        · rw [swap_apply_of_ne_of_ne hl hr]
          exact .rel _ _ (.inl (sameCycle_step σ w))
  · intro huv
    induction huv with
    | rel a b hab =>
      rcases hab with hab | ⟨rfl, rfl⟩
      · refine sameCycle_of_steps ?_ hab
        intro w
        by_cases hl : w = l
        · subst hl
          have : (σ * swap w r) r = σ w := by simp
          rw [← this]
          exact hlr.trans (sameCycle_step _ r)
        · by_cases hr : w = r
          · subst hr
            have : (σ * swap l w) l = σ w := by simp
            rw [← this]
            exact hlr.symm.trans (sameCycle_step _ l)
          · have : (σ * swap l r) w = σ w := by simp [swap_apply_of_ne_of_ne hl hr]
            rw [← this]
            exact sameCycle_step _ w
      · exact hlr
    | refl => exact SameCycle.refl _ _
    | symm a b _ ih => exact ih.symm
    | trans a b c _ _ ih1 ih2 => exact ih1.trans ih2

/-- effect of the relabelling loop -/
theorem relabel_spec (σ : Perm K) (mapping : K → Option K) (left z0 al : K)
    (hm : ∀ k, SameCycle σ z0 k → mapping k = some (σ k)) (hl : ¬ SameCycle σ z0 left)
    (aux : K → Option K) (hal : aux left = some al) (n i : Nat) (hi : i + n = minimalPeriod σ z0)
    (hn : 0 < n) (fuel : Nat) (hf : n ≤ fuel) :
    relabel mapping left z0 fuel
      (fun k => if ∃ j < i, k = σ^[j] z0 then some al else aux k) (σ^[i] z0) =
    some (fun k => if ∃ j < minimalPeriod σ z0, k = σ^[j] z0 then some al else aux k) := by
  classical
  induction n generalizing i fuel with
  | zero => omega
  | succ n ih =>
    obtain ⟨fuel, rfl⟩ : ∃ f, fuel = f + 1 := ⟨fuel - 1, by omega⟩
    have hleft : ¬ ∃ j < i, left = σ^[j] z0 := by
      rintro ⟨j, _, hj⟩
      exact hl ((sameCycle_iff_iterate σ z0 left).2 ⟨j, by omega, hj.symm⟩)
    have hmz : mapping (σ^[i] z0) = some (σ^[i + 1] z0) := by
      rw [hm _ ((sameCycle_iff_iterate σ z0 _).2 ⟨i, by omega, rfl⟩), iterate_succ_apply']
    have hput : mapPut (fun k => if ∃ j < i, k = σ^[j] z0 then some al else aux k) (σ^[i] z0) al =
        fun k => if ∃ j < i + 1, k = σ^[j] z0 then some al else aux k := by
      funext k
      simp only [mapPut]
      by_cases hk : k = σ^[i] z0
      · have : ∃ j < i + 1, k = σ^[j] z0 := ⟨i, by omega, hk⟩
        rw [if_pos hk, if_pos this]
      · rw [if_neg hk]
        congr 1
        apply propext
        constructor
        · rintro ⟨j, hj, h⟩; exact ⟨j, by omega, h⟩
        · rintro ⟨j, hj, h⟩
          rcases Nat.lt_succ_iff_lt_or_eq.1 hj with h' | rfl
          · exact ⟨j, h', h⟩
          · exact absurd h hk
    simp only [relabel]
    rw [if_neg hleft, hal]
    simp only [Option.bind_eq_bind, Option.bind_some, hmz]
    rw [hput]
    by_cases hend : n = 0
    · subst hend
      have : i + 1 = minimalPeriod σ z0 := hi
      rw [this, (isPeriodicPt_minimalPeriod σ z0).eq, if_pos rfl]
    · have hne : σ^[i + 1] z0 ≠ z0 := by
        intro he
        have h1 : IsPeriodicPt σ (i + 1) z0 := he
        have := h1.minimalPeriod_le (by omega)
        omega
      rw [if_neg hne]
      exact ih (i + 1) (by omega) (by omega) fuel (by omega)

theorem period_le_card (σ : Perm K) (x : K) : minimalPeriod σ x ≤ Nat.card K := by
  classical
  have := Fintype.ofFinite K
  have hinj : Set.InjOn (fun n => σ^[n] x) (Set.Iio (minimalPeriod σ x)) :=
    iterate_injOn_Iio_minimalPeriod
  have h2 : (Finset.range (minimalPeriod σ x)).card ≤ (Finset.univ : Finset K).card := by
    apply Finset.card_le_card_of_injOn (fun n => σ^[n] x)
    · intro n _; simp
    · intro a ha b hb hab
      exact hinj (by simpa using ha) (by simpa using hb) hab
  simpa [Nat.card_eq_fintype_card] using h2

end merge

/-- what holds after processing constraints with relation `E` on the touched cells `D` -/
structure Inv (s : CycleRep K) (D : K → Prop) (E : K → K → Prop) (σ : Perm K) (a : K → K) :
    Prop where
  mapIn : ∀ k, D k → s.mapping k = some (σ k)
  mapOut : ∀ k, ¬ D k → s.mapping k = none
  fixOut : ∀ k, ¬ D k → σ k = k
  auxIn : ∀ k, D k → s.aux k = some (a k)
  repCycle : ∀ k, D k → SameCycle σ k (a k)
  repUnique : ∀ k l, D k → SameCycle σ k l → a k = a l
  sizesIn : ∀ k, D k → ∃ n, s.sizes k = some n
  closure : ∀ k l, SameCycle σ k l ↔ Relation.EqvGen E k l

variable [Finite K]

theorem Inv.closed {s : CycleRep K} {D : K → Prop} {E : K → K → Prop} {σ : Perm K} {a : K → K}
    (h : Inv s D E σ a) {k l : K} (hk : D k) (hkl : SameCycle σ k l) : D l := by
  by_contra hl
  have hfix := h.fixOut l hl
  obtain ⟨n, hn⟩ := hkl.symm.exists_nat_pow_eq
  have : ∀ n : Nat, (σ ^ n) l = l := by
    intro n
    induction n with
    | zero => simp
    | succ n ih => rw [pow_succ, Equiv.Perm.mul_apply, hfix, ih]
  rw [this] at hn
  exact hl (hn ▸ hk)

theorem inv_addKey {s : CycleRep K} {D : K → Prop} {E : K → K → Prop} {σ : Perm K} {a : K → K}
    (h : Inv s D E σ a) (k : K) (hk : ¬ D k) :
    Inv (s.addKey k) (fun x => D x ∨ x = k) E σ (fun x => if x = k then k else a x) := by
  have hfix := h.fixOut k hk
  have hcyc : ∀ l, SameCycle σ k l → l = k := by
    intro l hl
    obtain ⟨n, rfl⟩ := hl.exists_nat_pow_eq
    induction n with
    | zero => simp
    | succ n ih =>
      rw [pow_succ, Equiv.Perm.mul_apply, hfix]; exact ih ⟨n, by simp⟩
  refine ⟨?_, ?_, ?_, ?_, ?_, ?_, ?_, h.closure⟩
  · intro x hx
    simp only [addKey, mapPut]
    by_cases hxk : x = k
    · subst hxk; simp [hfix]
    · rw [if_neg hxk]; exact h.mapIn x (by tauto)
  · intro x hx
    simp only [addKey, mapPut]
    rw [if_neg (by tauto)]; exact h.mapOut x (by tauto)
  · intro x hx; exact h.fixOut x (by tauto)
  · intro x hx
    simp only [addKey, mapPut]
    by_cases hxk : x = k
    · simp [hxk]
    · simp only [if_neg hxk]; exact h.auxIn x (by tauto)
  · intro x hx
    by_cases hxk : x = k
    · subst hxk; rw [if_pos rfl]
    · simp only [if_neg hxk]; exact h.repCycle x (by tauto)
  · intro x y hx hxy
    by_cases hxk : x = k
    · subst hxk
      have := hcyc y hxy
      simp [this]
    · have hyk : y ≠ k := by
        rintro rfl
        exact hxk (hcyc x hxy.symm)
      simp only [if_neg hxk, if_neg hyk]
      exact h.repUnique x y (by tauto) hxy
  · intro x hx
    simp only [addKey, mapPut]
    by_cases hxk : x = k
    · simp [hxk]
    · simp only [if_neg hxk]; exact h.sizesIn x (by tauto)

theorem inv_addKey_again {s : CycleRep K} {D : K → Prop} {σ : Perm K} {a : K → K}
    (h : Inv s D (fun _ _ => False) σ a) (k : K) :
    ∃ σ' a', Inv (s.addKey k) (fun x => D x ∨ x = k) (fun _ _ => False) σ' a' := by
  by_cases hk : D k
  · -- the key is written again with the same values, as all cycles are trivial
    have htriv : ∀ x y, SameCycle σ x y → x = y := by
      intro x y hxy
      have := (h.closure x y).1 hxy
      induction this with
      | rel _ _ h => exact h.elim
      | refl => rfl
      | symm _ _ _ ih => exact (ih ((h.closure _ _).2 ‹_›)).symm
      | trans _ _ _ _ _ ih1 ih2 =>
        exact (ih1 ((h.closure _ _).2 ‹_›)).trans (ih2 ((h.closure _ _).2 ‹_›))
    have hσ : ∀ x, σ x = x := fun x => (htriv x (σ x) (sameCycle_step σ x)).symm
    have ha : ∀ x, D x → a x = x := fun x hx => (htriv x (a x) (h.repCycle x hx)).symm
    refine ⟨σ, a, ?_, ?_, ?_, ?_, ?_, ?_, ?_, h.closure⟩
    · intro x hx
      simp only [addKey, mapPut]
      by_cases hxk : x = k
      · simp [hxk, hσ]
      · rw [if_neg hxk]; exact h.mapIn x (by tauto)
    · intro x hx
      simp only [addKey, mapPut]
      rw [if_neg (by tauto)]; exact h.mapOut x (by tauto)
    · intro x _; exact hσ x
    · intro x hx
      simp only [addKey, mapPut]
      by_cases hxk : x = k
      · simp [hxk, ha k hk]
      · simp only [if_neg hxk]; exact h.auxIn x (by tauto)
    · intro x hx
      rcases hx with hx | rfl
      · exact h.repCycle x hx
      · exact h.repCycle _ hk
    · intro x y _ hxy; rw [htriv x y hxy]
    · intro x hx
      simp only [addKey, mapPut]
      by_cases hxk : x = k
      · simp [hxk]
      · simp only [if_neg hxk]; exact h.sizesIn x (by tauto)
  · exact ⟨_, _, inv_addKey h k hk⟩

theorem inv_ensureKey {s : CycleRep K} {D : K → Prop} {E : K → K → Prop} {σ : Perm K} {a : K → K}
    (h : Inv s D E σ a) (k : K) :
    ∃ a', Inv (s.ensureKey k) (fun x => D x ∨ x = k) E σ a' := by
  by_cases hk : D k
  · refine ⟨a, ?_⟩
    simp only [ensureKey, h.mapIn k hk]
    have : (fun x => D x ∨ x = k) = D := by
      funext x; apply propext
      constructor
      · rintro (h | rfl)
        · exact h
        · exact hk
      · exact .inl
    rw [this]; exact h
  · refine ⟨fun x => if x = k then k else a x, ?_⟩
    simp only [ensureKey, h.mapOut k hk]
    exact inv_addKey h k hk

theorem eqvGen_congr {E E' : K → K → Prop} (h : ∀ x y, E x y → Relation.EqvGen E' x y)
    {u v : K} (huv : Relation.EqvGen E u v) : Relation.EqvGen E' u v := by
  induction huv with
  | rel x y hxy => exact h x y hxy
  | refl => exact .refl _
  | symm _ _ _ ih => exact .symm _ _ ih
  | trans _ _ _ _ _ ih1 ih2 => exact .trans _ _ _ ih1 ih2

theorem inv_merge {s : CycleRep K} {D : K → Prop} {E : K → K → Prop} {σ : Perm K} {a : K → K}
    (h : Inv s D E σ a) (l r : K) (hl : D l) (hr : D r) (hne : a l ≠ a r) (fuel : Nat)
    (hf : Nat.card K ≤ fuel) :
    ∃ s' a', merge fuel s l r = some s' ∧
      Inv s' D (fun x y => E x y ∨ (x = l ∧ y = r)) (σ * swap l r) a' := by
  classical
  have hnc : ¬ SameCycle σ r l := fun hc => hne (h.repUnique r l hr hc).symm
  have hal : D (a l) := h.closed hl (h.repCycle l hl)
  have har : D (a r) := h.closed hr (h.repCycle r hr)
  obtain ⟨sl, hsl⟩ := h.sizesIn _ hal
  obtain ⟨sr, hsr⟩ := h.sizesIn _ har
  have hnc' : ¬ SameCycle σ (a r) l := fun hc => hnc ((h.repCycle r hr).trans hc)
  have hrel := relabel_spec σ s.mapping l (a r) (a l)
    (fun k hk => h.mapIn k (h.closed har hk)) hnc' s.aux (h.auxIn l hl)
    (minimalPeriod σ (a r)) 0 (by omega) (period_pos σ _) fuel
    ((period_le_card σ _).trans hf)
  simp only [Nat.not_lt_zero, false_and, exists_false, if_false, iterate_zero, id_eq] at hrel
  have hin : ∀ k, (∃ j < minimalPeriod σ (a r), k = σ^[j] (a r)) ↔ SameCycle σ (a r) k := by
    intro k
    rw [sameCycle_iff_iterate]
    constructor
    · rintro ⟨j, hj, rfl⟩; exact ⟨j, hj, rfl⟩
    · rintro ⟨j, hj, rfl⟩; exact ⟨j, hj, rfl⟩
  simp only [hin] at hrel
  have hlr : l ≠ r := by rintro rfl; exact hne rfl
  let a' : K → K := fun k => if SameCycle σ (a r) k then a l else a k
  refine ⟨⟨mapPut (mapPut s.mapping l (σ r)) r (σ l),
    fun k => if SameCycle σ (a r) k then some (a l) else s.aux k,
    mapPut s.sizes (a l) ((sl + sr) % 2 ^ 32)⟩, a', by
    simp only [merge, h.auxIn l hl, h.auxIn r hr, hsl, hsr, hrel, h.mapIn l hl, h.mapIn r hr,
      Option.bind_eq_bind, Option.bind_some], ?_⟩
  have hσl : (σ * swap l r) l = σ r := by simp
  have hσr : (σ * swap l r) r = σ l := by simp
  have hσo : ∀ k, k ≠ l → k ≠ r → (σ * swap l r) k = σ k := by
    intro k h1 h2; simp [swap_apply_of_ne_of_ne h1 h2]
  have hmono : ∀ u v, SameCycle σ u v → SameCycle (σ * swap l r) u v := by
    intro u v huv
    rw [sameCycle_merged σ l r hnc]
    exact .rel _ _ (.inl huv)
  have hlrc := merged_lr σ l r hnc
  -- description of the merged classes through the old representatives
  have ha'const : ∀ u v, D u → SameCycle (σ * swap l r) u v → a' u = a' v := by
    have key : ∀ u v, Relation.EqvGen (fun x y => SameCycle σ x y ∨ (x = l ∧ y = r)) u v →
        (D u ↔ D v) ∧ (D u → a' u = a' v) := by
      intro u v huv
      induction huv with
      | rel x y hxy =>
        rcases hxy with hxy | ⟨rfl, rfl⟩
        · have hD : D x ↔ D y := ⟨fun hx => h.closed hx hxy, fun hy => h.closed hy hxy.symm⟩
          refine ⟨hD, fun hx => ?_⟩
          simp only [a']
          by_cases hx' : SameCycle σ (a r) x
          · rw [if_pos hx', if_pos (hx'.trans hxy)]
          · rw [if_neg hx', if_neg (fun hy => hx' (hy.trans hxy.symm))]
            exact h.repUnique x y hx hxy
        · refine ⟨⟨fun _ => hr, fun _ => hl⟩, fun _ => ?_⟩
          simp only [a']
          rw [if_neg hnc', if_pos (h.repCycle _ hr).symm]
      | refl x => exact ⟨Iff.rfl, fun _ => rfl⟩
      | symm x y _ ih => exact ⟨ih.1.symm, fun hy => (ih.2 (ih.1.2 hy)).symm⟩
      | trans x y z _ _ ih1 ih2 =>
        exact ⟨ih1.1.trans ih2.1, fun hx => (ih1.2 hx).trans (ih2.2 (ih1.1.1 hx))⟩
    intro u v hu huv
    exact (key u v ((sameCycle_merged σ l r hnc u v).1 huv)).2 hu
  refine ⟨?_, ?_, ?_, ?_, ?_, ha'const, ?_, ?_⟩
  · intro k hk
    simp only [mapPut]
    by_cases hkr : k = r
    · subst hkr; rw [if_pos rfl, hσr]
    · rw [if_neg hkr]
      by_cases hkl : k = l
      · subst hkl; rw [if_pos rfl, hσl]
      · rw [if_neg hkl, hσo k hkl hkr]; exact h.mapIn k hk
  · intro k hk
    simp only [mapPut]
    rw [if_neg (by rintro rfl; exact hk hr), if_neg (by rintro rfl; exact hk hl)]
    exact h.mapOut k hk
  · intro k hk
    rw [hσo k (by rintro rfl; exact hk hl) (by rintro rfl; exact hk hr)]
    exact h.fixOut k hk
  · intro k hk
    simp only [a']
    split
    · rfl
    · exact h.auxIn k hk
  · intro k hk
    simp only [a']
    split
    · rename_i hc
      have h1 := hmono _ _ hc
      have h2 := hmono _ _ (h.repCycle r hr)
      have h3 := hmono _ _ (h.repCycle l hl)
      exact h1.symm.trans (h2.symm.trans (hlrc.symm.trans h3))
    · exact hmono _ _ (h.repCycle k hk)
  · intro k hk
    simp only [mapPut]
    split
    · exact ⟨_, rfl⟩
    · exact h.sizesIn k hk
  · intro k m
    rw [sameCycle_merged σ l r hnc]
    constructor
    · intro hkm
      induction hkm with
      | rel x y hxy =>
        rcases hxy with hxy | hxy
        · exact eqvGen_congr (fun _ _ h => .rel _ _ (.inl h)) ((h.closure x y).1 hxy)
        · exact .rel _ _ (.inr hxy)
      | refl => exact .refl _
      | symm _ _ _ ih => exact .symm _ _ ih
      | trans _ _ _ _ _ ih1 ih2 => exact .trans _ _ _ ih1 ih2
    · intro hkm
      induction hkm with
      | rel x y hxy =>
        rcases hxy with hxy | hxy
        · exact .rel _ _ (.inl ((h.closure x y).2 (.rel _ _ hxy)))
        · exact .rel _ _ (.inr hxy)
      | refl => exact .refl _
      | symm _ _ _ ih => exact .symm _ _ ih
      | trans _ _ _ _ _ ih1 ih2 => exact .trans _ _ _ ih1 ih2

theorem Inv.changeRel {s : CycleRep K} {D : K → Prop} {E E' : K → K → Prop} {σ : Perm K} {a : K → K}
    (h : Inv s D E σ a) (h1 : ∀ x y, E x y → Relation.EqvGen E' x y)
    (h2 : ∀ x y, E' x y → Relation.EqvGen E x y) : Inv s D E' σ a :=
  { h with closure := fun k l =>
      (h.closure k l).trans ⟨eqvGen_congr h1, eqvGen_congr h2⟩ }

theorem inv_applyCopy {s : CycleRep K} {D : K → Prop} {E : K → K → Prop} {σ : Perm K} {a : K → K}
    (h : Inv s D E σ a) (x y : K) (fuel : Nat) (hf : Nat.card K ≤ fuel) :
    ∃ s' σ' a', applyCopy fuel s x y = some s' ∧
      Inv s' (fun k => (D k ∨ k = x) ∨ k = y) (fun u v => E u v ∨ (u = x ∧ v = y)) σ' a' := by
  obtain ⟨a1, h1⟩ := inv_ensureKey h x
  obtain ⟨a2, h2⟩ := inv_ensureKey h1 y
  have hx : (D x ∨ x = x) ∨ x = y := by simp
  have hy : (D y ∨ y = x) ∨ y = y := by simp
  have hax := h2.auxIn x hx
  have hay := h2.auxIn y hy
  simp only [applyCopy, hax, hay, Option.bind_eq_bind, Option.bind_some]
  by_cases he : a2 x = a2 y
  · rw [if_pos he]
    refine ⟨_, σ, a2, rfl, h2.changeRel (fun u v huv => .rel _ _ (.inl huv)) ?_⟩
    rintro u v (huv | ⟨rfl, rfl⟩)
    · exact .rel _ _ huv
    · rw [← h2.closure]
      exact (h2.repCycle _ hx).trans (he ▸ (h2.repCycle _ hy).symm)
  · rw [if_neg he]
    obtain ⟨sx, hsx⟩ := h2.sizesIn _ (h2.closed hx (h2.repCycle x hx))
    obtain ⟨sy, hsy⟩ := h2.sizesIn _ (h2.closed hy (h2.repCycle y hy))
    simp only [hsx, hsy, Option.bind_some]
    split
    · obtain ⟨s', a', hs', hi⟩ := inv_merge h2 y x hy hx (Ne.symm he) fuel hf
      refine ⟨s', _, a', hs', hi.changeRel ?_ ?_⟩
      · rintro u v (huv | ⟨rfl, rfl⟩)
        · exact .rel _ _ (.inl huv)
        · exact .symm _ _ (.rel _ _ (.inr ⟨rfl, rfl⟩))
      · rintro u v (huv | ⟨rfl, rfl⟩)
        · exact .rel _ _ (.inl huv)
        · exact .symm _ _ (.rel _ _ (.inr ⟨rfl, rfl⟩))
    · obtain ⟨s', a', hs', hi⟩ := inv_merge h2 x y hx hy he fuel hf
      exact ⟨s', _, a', hs', hi⟩

theorem inv_grid (grid : List K) (s : CycleRep K) (D : K → Prop) (σ : Perm K) (a : K → K)
    (h : Inv s D (fun _ _ => False) σ a) :
    ∃ σ' a', Inv (grid.foldl addKey s) (fun k => D k ∨ k ∈ grid) (fun _ _ => False) σ' a' := by
  induction grid generalizing s D σ a with
  | nil => exact ⟨σ, a, by simpa using h⟩
  | cons k grid ih =>
    obtain ⟨σ1, a1, h1⟩ := inv_addKey_again h k
    obtain ⟨σ2, a2, h2⟩ := ih _ _ _ _ h1
    refine ⟨σ2, a2, ?_⟩
    have : (fun x => D x ∨ x ∈ k :: grid) = fun x => (D x ∨ x = k) ∨ x ∈ grid := by
      funext x; simp [or_assoc]
    rw [this]; exact h2

theorem inv_constraints (cs : List (K × K)) (s : CycleRep K) (D : K → Prop) (E : K → K → Prop)
    (σ : Perm K) (a : K → K) (h : Inv s D E σ a) (fuel : Nat) (hf : Nat.card K ≤ fuel) :
    ∃ s' σ' a', cs.foldlM (fun s c => applyCopy fuel s c.1 c.2) s = some s' ∧
      Inv s' (fun k => D k ∨ ∃ c ∈ cs, k = c.1 ∨ k = c.2)
        (fun u v => E u v ∨ (u, v) ∈ cs) σ' a' := by
  induction cs generalizing s D E σ a with
  | nil => exact ⟨s, σ, a, by simp, by simpa using h⟩
  | cons c cs ih =>
    obtain ⟨s1, σ1, a1, e1, h1⟩ := inv_applyCopy h c.1 c.2 fuel hf
    obtain ⟨s2, σ2, a2, e2, h2⟩ := ih _ _ _ _ _ h1
    refine ⟨s2, σ2, a2, by simp [e1, e2], ?_⟩
    have hD : (fun k => D k ∨ ∃ c' ∈ c :: cs, k = c'.1 ∨ k = c'.2) =
        fun k => ((D k ∨ k = c.1) ∨ k = c.2) ∨ ∃ c' ∈ cs, k = c'.1 ∨ k = c'.2 := by
      funext k; simp [or_assoc]
    have hE : (fun u v => E u v ∨ (u, v) ∈ c :: cs) =
        fun u v => (E u v ∨ (u = c.1 ∧ v = c.2)) ∨ (u, v) ∈ cs := by
      funext u v; simp [or_assoc, Prod.ext_iff]
    rw [hD, hE]; exact h2

theorem build_spec (grid : List K) (cs : List (K × K)) (fuel : Nat) (hf : Nat.card K ≤ fuel) :
    ∃ s σ a, build fuel grid cs = some s ∧
      Inv s (fun k => k ∈ grid ∨ ∃ c ∈ cs, k = c.1 ∨ k = c.2) (fun u v => (u, v) ∈ cs) σ a := by
  have h0 : Inv (⟨fun _ => none, fun _ => none, fun _ => none⟩ : CycleRep K) (fun _ => False)
      (fun _ _ => False) 1 id := by
    refine ⟨by simp, by simp, by simp, by simp, by simp, by simp, by simp, ?_⟩
    intro k l
    constructor
    · rintro ⟨n, rfl⟩
      simp only [one_zpow, Equiv.Perm.coe_one, id_eq]; exact .refl _
    · intro h
      induction h with
      | rel _ _ h => exact h.elim
      | refl => exact SameCycle.refl _ _
      | symm _ _ _ ih => exact ih.symm
      | trans _ _ _ _ _ ih1 ih2 => exact ih1.trans ih2
  obtain ⟨σ1, a1, h1⟩ := inv_grid grid _ _ _ _ h0
  obtain ⟨s, σ, a, e, h2⟩ := inv_constraints cs _ _ _ _ _ h1 fuel hf
  refine ⟨s, σ, a, e, ?_⟩
  have hD : (fun k => k ∈ grid ∨ ∃ c ∈ cs, k = c.1 ∨ k = c.2) =
      fun k => (False ∨ k ∈ grid) ∨ ∃ c ∈ cs, k = c.1 ∨ k = c.2 := by funext k; simp
  have hE : (fun u v => (u, v) ∈ cs) = fun u v => False ∨ (u, v) ∈ cs := by funext u v; simp
  rw [hD, hE]; exact h2

end Crypto3Zk.CycleRep
