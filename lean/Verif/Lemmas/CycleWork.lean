import Mathlib.Algebra.BigOperators.Group.Finset.Basic
import Mathlib.Algebra.Order.BigOperators.Group.Finset
import Verif.Spec.CycleWork
import Verif.Lemmas.CycleRepresentation

/-!
# Lemmas for C107: the sizes of the cycles and the number of loop iterations
-/

namespace Crypto3Zk.CycleRep

open Equiv Equiv.Perm Function

variable {K : Type} [DecidableEq K]

/-- too little fuel for the relabelling loop -/
theorem relabel_none [Finite K] (σ : Perm K) (mapping : K → Option K) (left z0 : K)
    (hm : ∀ k, SameCycle σ z0 k → mapping k = some (σ k)) (n i : Nat)
    (hi : i + n = minimalPeriod σ z0) (fuel : Nat) (hf : fuel < n) (aux : K → Option K) :
    relabel mapping left z0 fuel aux (σ^[i] z0) = none := by
  induction n generalizing i fuel aux with
  | zero => omega
  | succ n ih =>
    cases fuel with
    | zero => rfl
    | succ fuel =>
      have hmz : mapping (σ^[i] z0) = some (σ^[i + 1] z0) := by
        rw [hm _ ((sameCycle_iff_iterate σ z0 _).2 ⟨i, by omega, rfl⟩), iterate_succ_apply']
      have hne : σ^[i + 1] z0 ≠ z0 := by
        intro he
        have h1 : IsPeriodicPt σ (i + 1) z0 := he
        have := h1.minimalPeriod_le (by omega)
        omega
      simp only [relabel, Option.bind_eq_bind, hmz]
      cases aux left with
      | none => rfl
      | some al =>
        simp only [Option.bind_some]
        rw [if_neg hne]
        exact ih (i + 1) (by omega) fuel (by omega) _

variable [Fintype K]

/-- the cells with the label `l` -/
def members (s : CycleRep K) (l : K) : Finset K := Finset.univ.filter fun k => s.aux k = some l

theorem mem_members (s : CycleRep K) (l k : K) : k ∈ s.members l ↔ s.aux k = some l := by
  simp [members]

/-- the recorded sizes are the true ones, and cells which are not in the mapping have no label -/
structure Sized (s : CycleRep K) : Prop where
  sizes : ∀ k l, s.aux k = some l → s.sizes l = some (s.members l).card
  out : ∀ k, s.mapping k = none → s.aux k = none

/-- the sum of the logarithms of the sizes of the cells' cycles -/
def potential (s : CycleRep K) : Nat :=
  ∑ k, match s.aux k with
    | some l => Nat.log 2 (s.members l).card
    | none => 0

section
variable {s : CycleRep K} {D : K → Prop} {E : K → K → Prop} {σ : Perm K} {a : K → K}

theorem Inv.aux_iff (h : Inv s D E σ a) (hz : s.Sized) (k l : K) :
    s.aux k = some l ↔ D k ∧ a k = l := by
  constructor
  · intro hk
    by_cases hD : D k
    · rw [h.auxIn k hD] at hk
      exact ⟨hD, Option.some.inj hk⟩
    · rw [hz.out k (h.mapOut k hD)] at hk
      simp at hk
  · rintro ⟨hD, rfl⟩
    exact h.auxIn k hD

theorem Inv.cycle_iff (h : Inv s D E σ a) (hz : s.Sized) (r : K) (hr : D r) (k : K) :
    SameCycle σ (a r) k ↔ s.aux k = some (a r) := by
  rw [h.aux_iff hz]
  constructor
  · intro hc
    have h1 := (h.repCycle r hr).trans hc
    exact ⟨h.closed hr h1, (h.repUnique r k hr h1).symm⟩
  · rintro ⟨hk, he⟩
    rw [← he]
    exact (h.repCycle k hk).symm

theorem Inv.period (h : Inv s D E σ a) (hz : s.Sized) (r : K) (hr : D r) :
    minimalPeriod σ (a r) = (s.members (a r)).card := by
  have h1 : s.members (a r) = (Finset.range (minimalPeriod σ (a r))).image fun j => σ^[j] (a r) := by
    ext k
    rw [members, Finset.mem_filter, ← h.cycle_iff hz r hr, sameCycle_iff_iterate]
    simp
  rw [h1, Finset.card_image_of_injOn, Finset.card_range]
  intro i hi j hj hij
  exact iterate_injOn_Iio_minimalPeriod (by simpa using hi) (by simpa using hj) hij

/-- the effect of a merge, and the fuel it needs -/
theorem merge_work (h : Inv s D E σ a) (hz : s.Sized) (l r : K) (hl : D l) (hr : D r)
    (hne : a l ≠ a r) (fuel : Nat) :
    merge fuel s l r = if (s.members (a r)).card ≤ fuel then
      some ⟨mapPut (mapPut s.mapping l (σ r)) r (σ l),
        fun k => if s.aux k = some (a r) then some (a l) else s.aux k,
        mapPut s.sizes (a l) (((s.members (a l)).card + (s.members (a r)).card) % 2 ^ 32)⟩
      else none := by
  classical
  have hnc : ¬ SameCycle σ r l := fun hc => hne (h.repUnique r l hr hc).symm
  have hal : D (a l) := h.closed hl (h.repCycle l hl)
  have har : D (a r) := h.closed hr (h.repCycle r hr)
  have hsl := hz.sizes l (a l) (h.auxIn l hl)
  have hsr := hz.sizes r (a r) (h.auxIn r hr)
  have hnc' : ¬ SameCycle σ (a r) l := fun hc => hnc ((h.repCycle r hr).trans hc)
  have hp := h.period hz r hr
  split
  · rename_i hf
    have hrel := relabel_spec σ s.mapping l (a r) (a l)
      (fun k hk => h.mapIn k (h.closed har hk)) hnc' s.aux (h.auxIn l hl)
      (minimalPeriod σ (a r)) 0 (by omega) (period_pos σ _) fuel (by omega)
    simp only [Nat.not_lt_zero, false_and, exists_false, if_false, iterate_zero, id_eq] at hrel
    have hin : ∀ k, (∃ j < minimalPeriod σ (a r), k = σ^[j] (a r)) ↔ s.aux k = some (a r) := by
      intro k
      rw [← h.cycle_iff hz r hr, sameCycle_iff_iterate]
      constructor
      · rintro ⟨j, hj, rfl⟩; exact ⟨j, hj, rfl⟩
      · rintro ⟨j, hj, rfl⟩; exact ⟨j, hj, rfl⟩
    simp only [hin] at hrel
    simp only [merge, h.auxIn l hl, h.auxIn r hr, hsl, hsr, hrel, h.mapIn l hl, h.mapIn r hr,
      Option.bind_eq_bind, Option.bind_some]
  · rename_i hf
    have hrel := relabel_none σ s.mapping l (a r) (fun k hk => h.mapIn k (h.closed har hk))
      (minimalPeriod σ (a r)) 0 (by omega) fuel (by omega) s.aux
    rw [iterate_zero, id_eq] at hrel
    simp only [merge, h.auxIn l hl, h.auxIn r hr, hsl, hsr, hrel, Option.bind_eq_bind,
      Option.bind_some, Option.bind_none]

end

theorem sized_ensureKey {s : CycleRep K} {D : K → Prop} {E : K → K → Prop} {σ : Perm K} {a : K → K}
    (h : Inv s D E σ a) (hz : s.Sized) (k : K) :
    (s.ensureKey k).Sized ∧ (s.ensureKey k).potential = s.potential := by
  by_cases hk : D k
  · have : s.ensureKey k = s := by simp only [ensureKey, h.mapIn k hk]
    rw [this]
    exact ⟨hz, rfl⟩
  · have he : s.ensureKey k = s.addKey k := by simp only [ensureKey, h.mapOut k hk]
    rw [he]
    have hn : s.aux k = none := hz.out k (h.mapOut k hk)
    have hno : ∀ j, s.aux j ≠ some k := by
      intro j hj
      obtain ⟨hD, rfl⟩ := (h.aux_iff hz j k).1 hj
      exact hk (h.closed hD (h.repCycle j hD))
    have hmk : (s.addKey k).members k = {k} := by
      ext j
      rw [mem_members, Finset.mem_singleton]
      simp only [addKey, mapPut]
      by_cases hj : j = k
      · simp [hj]
      · rw [if_neg hj]
        exact ⟨fun h => absurd h (hno j), fun h => absurd h hj⟩
    have hml : ∀ l, l ≠ k → (s.addKey k).members l = s.members l := by
      intro l hl
      ext j
      rw [mem_members, mem_members]
      simp only [addKey, mapPut]
      by_cases hj : j = k
      · subst hj
        rw [if_pos rfl, hn]
        simp [Ne.symm hl]
      · rw [if_neg hj]
    refine ⟨⟨?_, ?_⟩, ?_⟩
    · intro j l hj
      by_cases hl : l = k
      · subst hl
        rw [hmk]
        simp [addKey, mapPut]
      · rw [hml l hl]
        simp only [addKey, mapPut] at hj ⊢
        rw [if_neg hl]
        by_cases hjk : j = k
        · rw [if_pos hjk] at hj
          exact absurd (Option.some.inj hj).symm hl
        · rw [if_neg hjk] at hj
          exact hz.sizes j l hj
    · intro j hj
      simp only [addKey, mapPut] at hj ⊢
      by_cases hjk : j = k
      · rw [if_pos hjk] at hj
        simp at hj
      · rw [if_neg hjk] at hj ⊢
        exact hz.out j hj
    · rw [potential, potential]
      apply Finset.sum_congr rfl
      intro j _
      by_cases hjk : j = k
      · subst hjk
        have h1 : (s.addKey j).aux j = some j := by simp [addKey, mapPut]
        rw [h1, hn]
        simp [hmk]
      · have h1 : (s.addKey k).aux j = s.aux j := by simp [addKey, mapPut, hjk]
        rw [h1]
        cases hj : s.aux j with
        | none => rfl
        | some l =>
          have : l ≠ k := by rintro rfl; exact hno j hj
          simp only [hml l this]

/-- the number of cells with a label -/
def known (s : CycleRep K) : Nat := (Finset.univ.filter fun k => s.aux k ≠ none).card

theorem members_le_known (s : CycleRep K) (l : K) : (s.members l).card ≤ s.known := by
  apply Finset.card_le_card
  intro k hk
  simp only [members, Finset.mem_filter, Finset.mem_univ, true_and] at hk ⊢
  rw [hk]
  simp

theorem two_members_le_known (s : CycleRep K) (l l' : K) (h : l ≠ l') :
    (s.members l).card + (s.members l').card ≤ s.known := by
  rw [← Finset.card_union_of_disjoint]
  · apply Finset.card_le_card
    intro k hk
    simp only [members, Finset.mem_union, Finset.mem_filter, Finset.mem_univ, true_and] at hk ⊢
    rcases hk with hk | hk <;> rw [hk] <;> simp
  · rw [Finset.disjoint_left]
    intro k hk hk'
    simp only [members, Finset.mem_filter, Finset.mem_univ, true_and] at hk hk'
    rw [hk] at hk'
    exact h (Option.some.inj hk')

theorem potential_le (s : CycleRep K) : s.potential ≤ s.known * Nat.log 2 s.known := by
  classical
  have h1 : s.potential ≤ ∑ k : K, if s.aux k ≠ none then Nat.log 2 s.known else 0 := by
    apply Finset.sum_le_sum
    intro k _
    cases hk : s.aux k with
    | none => simp
    | some l =>
      simp only [ne_eq, reduceCtorEq, not_false_eq_true, if_true]
      exact Nat.log_mono_right (s.members_le_known l)
  refine h1.trans ?_
  rw [← Finset.sum_filter, Finset.sum_const, smul_eq_mul]
  exact le_rfl

/-- sizes and potential after a merge of a smaller cycle into a larger one -/
theorem sized_merge {s s' : CycleRep K} {D : K → Prop} {E : K → K → Prop} {σ : Perm K} {a : K → K}
    (h : Inv s D E σ a) (hz : s.Sized) (l r : K) (hl : D l) (hr : D r) (hne : a l ≠ a r)
    (hle : (s.members (a r)).card ≤ (s.members (a l)).card) (hk : s.known < 2 ^ 32) (fuel : Nat)
    (hs : merge fuel s l r = some s') :
    s'.Sized ∧ s.potential + (s.members (a r)).card ≤ s'.potential := by
  classical
  rw [merge_work h hz l r hl hr hne] at hs
  split at hs
  swap
  · simp at hs
  have he := Option.some.inj hs
  have haux : ∀ k, s'.aux k = if s.aux k = some (a r) then some (a l) else s.aux k := by
    intro k; rw [← he]
  have hsz : s'.sizes = mapPut s.sizes (a l) (((s.members (a l)).card + (s.members (a r)).card) % 2 ^ 32) := by
    rw [← he]
  have hmp : s'.mapping = mapPut (mapPut s.mapping l (σ r)) r (σ l) := by rw [← he]
  clear hs he
  have hdis : Disjoint (s.members (a l)) (s.members (a r)) := by
    rw [Finset.disjoint_left]
    intro k hk hk'
    simp only [members, Finset.mem_filter, Finset.mem_univ, true_and] at hk hk'
    rw [hk] at hk'
    exact hne (Option.some.inj hk')
  have hml : s'.members (a l) = s.members (a l) ∪ s.members (a r) := by
    ext k
    simp only [members, Finset.mem_union, Finset.mem_filter, Finset.mem_univ, true_and, haux]
    by_cases hk : s.aux k = some (a r)
    · simp [hk]
    · simp [hk]
  have hcl : (s'.members (a l)).card = (s.members (a l)).card + (s.members (a r)).card := by
    rw [hml, Finset.card_union_of_disjoint hdis]
  have hmo : ∀ m, m ≠ a l → m ≠ a r → s'.members m = s.members m := by
    intro m h1 h2
    ext k
    simp only [members, Finset.mem_filter, Finset.mem_univ, true_and, haux]
    by_cases hk : s.aux k = some (a r)
    · simp [hk, Ne.symm h1, Ne.symm h2]
    · simp [hk]
  have hlt := s.two_members_le_known _ _ hne
  refine ⟨⟨?_, ?_⟩, ?_⟩
  · intro k m hkm
    rw [hsz]
    by_cases hm : m = a l
    · subst hm
      simp only [mapPut, if_true]
      rw [Nat.mod_eq_of_lt (by omega), hcl]
    · simp only [mapPut, if_neg hm]
      rw [haux] at hkm
      by_cases hkr : s.aux k = some (a r)
      · rw [if_pos hkr] at hkm
        exact absurd (Option.some.inj hkm).symm hm
      · rw [if_neg hkr] at hkm
        have hmr : m ≠ a r := by rintro rfl; exact hkr hkm
        rw [hmo m hm hmr]
        exact hz.sizes k m hkm
  · intro k hk
    rw [hmp] at hk
    simp only [mapPut] at hk
    by_cases h1 : k = r
    · rw [if_pos h1] at hk
      simp at hk
    · rw [if_neg h1] at hk
      by_cases h2 : k = l
      · rw [if_pos h2] at hk
        simp at hk
      · rw [if_neg h2] at hk
        rw [haux, hz.out k hk]
        simp
  · have hcard : (s.members (a r)).card = ∑ k : K, if s.aux k = some (a r) then 1 else 0 := by
      rw [members, Finset.card_filter]
    rw [hcard, potential, potential, ← Finset.sum_add_distrib]
    apply Finset.sum_le_sum
    intro k _
    rw [haux]
    cases hk : s.aux k with
    | none => simp
    | some m =>
      by_cases hm : m = a r
      · subst hm
        simp only [if_true]
        rw [hcl]
        have hpos : 0 < (s.members (a r)).card :=
          Finset.card_pos.2 ⟨k, by simp [members, hk]⟩
        rw [← Nat.log_mul_base (by omega) (by omega)]
        exact Nat.log_mono_right (by omega)
      · have h1 : ¬ (some m : Option K) = some (a r) := fun h => hm (Option.some.inj h)
        simp only [if_neg h1, add_zero]
        by_cases hml' : m = a l
        · subst hml'
          rw [hcl]
          exact Nat.log_mono_right (by omega)
        · rw [hmo m hml' hm]

theorem known_eq {s : CycleRep K} {D : K → Prop} {E : K → K → Prop} {σ : Perm K} {a : K → K}
    (h : Inv s D E σ a) (hz : s.Sized) : s.known = {k | D k}.ncard := by
  classical
  rw [known, ← Set.ncard_coe_finset]
  congr 1
  ext k
  simp only [Finset.coe_filter, Finset.mem_univ, true_and, Set.mem_setOf_eq]
  constructor
  · intro hk
    by_contra hD
    exact hk (hz.out k (h.mapOut k hD))
  · intro hD
    rw [h.auxIn k hD]
    simp

/-- one constraint -/
theorem sized_applyCopy {s : CycleRep K} {D : K → Prop} {E : K → K → Prop} {σ : Perm K} {a : K → K}
    (h : Inv s D E σ a) (hz : s.Sized) (x y : K) (fuel : Nat) (hf : Nat.card K ≤ fuel)
    (hk : {k | (D k ∨ k = x) ∨ k = y}.ncard < 2 ^ 32) :
    ∃ s' σ' a', applyCopy fuel s x y = some s' ∧
      Inv s' (fun k => (D k ∨ k = x) ∨ k = y) (fun u v => E u v ∨ (u = x ∧ v = y)) σ' a' ∧
      s'.Sized ∧ s.potential + s.iterations x y ≤ s'.potential := by
  obtain ⟨s', σ', a', hs', hi'⟩ := inv_applyCopy h x y fuel hf
  refine ⟨s', σ', a', hs', hi', ?_⟩
  obtain ⟨a1, h1⟩ := inv_ensureKey h x
  obtain ⟨hz1, hp1⟩ := sized_ensureKey h hz x
  obtain ⟨a2, h2⟩ := inv_ensureKey h1 y
  obtain ⟨hz2, hp2⟩ := sized_ensureKey h1 hz1 y
  rw [hp1] at hp2
  have hx : (D x ∨ x = x) ∨ x = y := by simp
  have hy : (D y ∨ y = x) ∨ y = y := by simp
  have hax := h2.auxIn x hx
  have hay := h2.auxIn y hy
  have hkn := known_eq h2 hz2
  rw [← hkn] at hk
  by_cases he : a2 x = a2 y
  · have hap : ∀ f, applyCopy f s x y = some ((s.ensureKey x).ensureKey y) := by
      intro f
      simp only [applyCopy, hax, hay, Option.bind_eq_bind, Option.bind_some]
      rw [if_pos he]
    have hit : s.iterations x y = 0 := by
      rw [iterations]
      exact Nat.sInf_eq_zero.2 (.inl (by simp [hap]))
    rw [hap] at hs'
    rw [← Option.some.inj hs', hit, hp2]
    exact ⟨hz2, le_rfl⟩
  · have hsx := hz2.sizes x _ hax
    have hsy := hz2.sizes y _ hay
    have hap : ∀ f, applyCopy f s x y = if
        (((s.ensureKey x).ensureKey y).members (a2 x)).card <
          (((s.ensureKey x).ensureKey y).members (a2 y)).card then
        merge f ((s.ensureKey x).ensureKey y) y x else merge f ((s.ensureKey x).ensureKey y) x y := by
      intro f
      simp only [applyCopy, hax, hay, Option.bind_eq_bind, Option.bind_some]
      rw [if_neg he]
      simp only [hsx, hsy, Option.bind_some]
    have hfin : ∀ l r, ((D l ∨ l = x) ∨ l = y) → ((D r ∨ r = x) ∨ r = y) → a2 l ≠ a2 r →
        (((s.ensureKey x).ensureKey y).members (a2 r)).card ≤
          (((s.ensureKey x).ensureKey y).members (a2 l)).card →
        (∀ f, applyCopy f s x y = merge f ((s.ensureKey x).ensureKey y) l r) →
        s'.Sized ∧ s.potential + s.iterations x y ≤ s'.potential := by
      intro l r hl hr hne hle hap'
      rw [hap'] at hs'
      obtain ⟨g1, g2⟩ := sized_merge h2 hz2 l r hl hr hne hle hk fuel hs'
      refine ⟨g1, ?_⟩
      have hit : s.iterations x y ≤ (((s.ensureKey x).ensureKey y).members (a2 r)).card := by
        apply Nat.sInf_le
        rw [Set.mem_setOf_eq, hap', merge_work h2 hz2 l r hl hr hne, if_pos le_rfl]
        rfl
      omega
    by_cases hlt : (((s.ensureKey x).ensureKey y).members (a2 x)).card <
          (((s.ensureKey x).ensureKey y).members (a2 y)).card
    · exact hfin y x hy hx (Ne.symm he) hlt.le fun f => by rw [hap, if_pos hlt]
    · exact hfin x y hx hy he (not_lt.1 hlt) fun f => by rw [hap, if_neg hlt]

/-- all constraints -/
theorem sized_constraints (cs : List (K × K)) (s : CycleRep K) (D : K → Prop) (E : K → K → Prop)
    (σ : Perm K) (a : K → K) (h : Inv s D E σ a) (hz : s.Sized) (fuel : Nat) (hf : Nat.card K ≤ fuel)
    (hk : {k | D k ∨ ∃ c ∈ cs, k = c.1 ∨ k = c.2}.ncard < 2 ^ 32) :
    ∃ s' σ' a', cs.foldlM (fun s c => applyCopy fuel s c.1 c.2) s = some s' ∧
      Inv s' (fun k => D k ∨ ∃ c ∈ cs, k = c.1 ∨ k = c.2)
        (fun u v => E u v ∨ (u, v) ∈ cs) σ' a' ∧ s'.Sized ∧
      s.potential + totalIterations fuel s cs ≤ s'.potential := by
  induction cs generalizing s D E σ a with
  | nil => exact ⟨s, σ, a, by simp, by simpa using h, hz, le_rfl⟩
  | cons c cs ih =>
    have hD : (fun k => D k ∨ ∃ c' ∈ c :: cs, k = c'.1 ∨ k = c'.2) =
        fun k => ((D k ∨ k = c.1) ∨ k = c.2) ∨ ∃ c' ∈ cs, k = c'.1 ∨ k = c'.2 := by
      funext k; simp [or_assoc]
    have hE : (fun u v => E u v ∨ (u, v) ∈ c :: cs) =
        fun u v => (E u v ∨ (u = c.1 ∧ v = c.2)) ∨ (u, v) ∈ cs := by
      funext u v; simp [or_assoc, Prod.ext_iff]
    have hk' : {k | ((D k ∨ k = c.1) ∨ k = c.2) ∨ ∃ c' ∈ cs, k = c'.1 ∨ k = c'.2}.ncard < 2 ^ 32 := by
      rw [← hD]; exact hk
    obtain ⟨s1, σ1, a1, e1, h1, z1, p1⟩ := sized_applyCopy h hz c.1 c.2 fuel hf
      (lt_of_le_of_lt (Set.ncard_le_ncard (fun k hk => .inl hk) (Set.toFinite _)) hk')
    obtain ⟨s2, σ2, a2, e2, h2, z2, p2⟩ := ih _ _ _ _ _ h1 z1 hk'
    refine ⟨s2, σ2, a2, by simp [e1, e2], ?_, z2, ?_⟩
    · rw [hD, hE]; exact h2
    · rw [totalIterations, e1]
      dsimp only
      omega

/-- the initial grid -/
theorem sized_start (grid : List K) : (start grid).Sized := by
  have h : ∀ (grid : List K) (s : CycleRep K),
      (∀ k, s.aux k = none ∨ s.aux k = some k ∧ s.sizes k = some 1) →
      (∀ k, s.mapping k = none → s.aux k = none) → (grid.foldl addKey s).Sized := by
    intro grid
    induction grid with
    | nil =>
      intro s h1 h2
      refine ⟨fun k l hk => ?_, h2⟩
      rcases h1 k with h | ⟨h, hs⟩
      · rw [List.foldl_nil, h] at hk
        simp at hk
      · rw [List.foldl_nil] at hk ⊢
        rw [h] at hk
        obtain rfl := Option.some.inj hk
        have : s.members k = {k} := by
          ext j
          simp only [members, Finset.mem_filter, Finset.mem_univ, true_and, Finset.mem_singleton]
          constructor
          · intro hj
            rcases h1 j with h' | ⟨h', _⟩
            · rw [h'] at hj; simp at hj
            · rw [h'] at hj; exact Option.some.inj hj
          · rintro rfl; exact h
        rw [this, hs]
        rfl
    | cons g grid ih =>
      intro s h1 h2
      rw [List.foldl_cons]
      apply ih
      · intro k
        simp only [addKey, mapPut]
        by_cases hk : k = g
        · right; simp [hk]
        · simp only [if_neg hk]; exact h1 k
      · intro k hk
        simp only [addKey, mapPut] at hk ⊢
        by_cases hkg : k = g
        · rw [if_pos hkg] at hk; simp at hk
        · rw [if_neg hkg] at hk ⊢; exact h2 k hk
  exact h grid _ (fun k => .inl rfl) (fun k _ => rfl)

end Crypto3Zk.CycleRep
