import Verif.Lemmas.PermutationArg
import Verif.Props.CycleRepresentation
import Mathlib.GroupTheory.Perm.Support
import Mathlib.Algebra.BigOperators.Group.Finset.Basic
import Mathlib.Algebra.Polynomial.BigOperators
import Mathlib.Algebra.Polynomial.Roots

/-!
# The cells of the permuted columns, and the preprocessed polynomials
-/

namespace Crypto3Zk

set_option linter.unusedSectionVars false

open Equiv.Perm

variable {F : Type} [Field F] {L : FftLib F} {A : Nat}

abbrev CellKey := Fin (2 ^ 32) × Fin (2 ^ 32)

theorem eqvGen_endpoint {K : Type} (R : K → K → Prop) (k l : K) (h : Relation.EqvGen R k l) :
    k ≠ l → (∃ m, R k m ∨ R m k) ∧ ∃ m, R l m ∨ R m l := by
  induction h with
  | rel x y h => intro _; exact ⟨⟨y, .inl h⟩, ⟨x, .inr h⟩⟩
  | refl x => intro h; exact absurd rfl h
  | symm x y _ ih => intro h; exact (ih h.symm).symm
  | trans x y z _ _ ih1 ih2 =>
    intro h
    by_cases h1 : x = y
    · subst h1; exact ih2 h
    · by_cases h2 : y = z
      · subst h2; exact ih1 h
      · exact ⟨(ih1 h1).1, (ih2 h2).2⟩

theorem rowValue_map_range (hL : L.Lawful A) (n : Nat) (hn : n ≤ A) (f : Nat → F) (j : Nat)
    (hj : j < 2 ^ n) : rowValue L n (L.coefficients ((List.range (2 ^ n)).map f)) j = f j := by
  rw [rowValue_coefficients hL n hn _ (by simp) j hj, List.getD_eq_getElem _ _ (by simpa using hj)]
  simp

theorem identityRow_eq (omega : F) : ∀ (k : Nat) (x : F),
    identityRow omega k x = (List.range k).map fun j => x * omega ^ j := by
  intro k
  induction k with
  | zero => intro x; rfl
  | succ k ih =>
    intro x
    rw [identityRow, ih, List.range_succ_eq_map, List.map_cons, List.map_map]
    simp only [pow_zero, mul_one, Function.comp_def, List.cons.injEq, true_and]
    apply List.map_congr_left
    intro j _
    rw [pow_succ]
    ring

theorem cellKey_eq (d : TableDesc) (v : PlonkVar) (i : Nat) (h : d.globalIndex v = some i)
    (hr : 0 ≤ v.rotation) (hr' : v.rotation < 2 ^ 32) :
    cellKey d v = some (mkKey i v.rotation.toNat) := by
  unfold cellKey mkKey
  rw [h]
  simp only [Option.map_some, Option.some.injEq, Prod.mk.injEq, true_and, Fin.mk.injEq]
  omega

theorem mkKey_val (c r : Nat) (hc : c < 2 ^ 32) (hr : r < 2 ^ 32) :
    (mkKey c r).1.val = c ∧ (mkKey c r).2.val = r :=
  ⟨Nat.mod_eq_of_lt hc, Nat.mod_eq_of_lt hr⟩

/-- The cells of the permuted columns in the usable rows. -/
def permCells (gi : List Nat) (usable : Nat) : Finset CellKey :=
  (Finset.range gi.length ×ˢ Finset.range usable).image fun p => mkKey (gi.getD p.1 0) p.2

/-- The identifier of a cell. -/
def cellId (L : FftLib F) (n : Nat) (gi : List Nat) (delta : F) (k : CellKey) : F :=
  delta ^ (gi.idxOf k.1.val) * L.root n ^ k.2.val

/-- What the preprocessor computes. -/
structure PermFacts (L : FftLib F) (n : Nat) (d : TableDesc) (cs : List (PlonkVar × PlonkVar))
    (gi : List Nat) (delta : F) (mqc : Nat) (pre : PermData F) (σ : Equiv.Perm CellKey) : Prop where
  nodup : gi.Nodup
  bound : ∀ c ∈ gi, c < d.witness + d.publicInput + d.constant
  sIdLen : pre.sId.length = gi.length
  sSigmaLen : pre.sSigma.length = gi.length
  sId : ∀ i < gi.length, ∀ j < 2 ^ n, rowValue L n (pre.sId.getD i []) j =
    cellId L n gi delta (mkKey (gi.getD i 0) j)
  sSigma : ∀ i < gi.length, ∀ j < 2 ^ n, rowValue L n (pre.sSigma.getD i []) j =
    cellId L n gi delta (σ (mkKey (gi.getD i 0) j))
  support : ∀ k, σ k ≠ k → k ∈ permCells gi d.usableRows
  cells : ∀ c ∈ cs, ∀ v, v = c.1 ∨ v = c.2 →
    ∃ i ∈ gi, d.globalIndex v = some i
  cycles : ∀ k l, SameCycle σ k l ↔ Relation.EqvGen (fun u v => ∃ c ∈ cs, ∃ x y,
    d.cellOf c.1 = some x ∧ d.cellOf c.2 = some y ∧ u = mkKey x.1 x.2.toNat ∧
      v = mkKey y.1 y.2.toNat) k l
  qLast : ∀ j < 2 ^ n, rowValue L n pre.qLast j = if j = d.usableRows then 1 else 0
  qBlind : ∀ j < 2 ^ n, rowValue L n pre.qBlind j = if d.usableRows + 1 ≤ j then 1 else 0
  lagrange0 : ∀ j < 2 ^ n, rowValue L n pre.lagrange0 j = if j = 0 then 1 else 0
  parts : permutationParts gi.length mqc = some pre.parts
  mqcEq : pre.mqc = mqc
  usableEq : pre.usableRows = d.usableRows

theorem globalIndex_erase (d : TableDesc) (v : PlonkVar) :
    d.globalIndex ⟨v.index, 0, true, v.type⟩ = d.globalIndex v := by
  cases v with
  | mk i r l t => cases t <;> rfl

theorem globalIndex_inj (d : TableDesc) (v w : PlonkVar) (i : Nat)
    (hv : d.globalIndex v = some i) (hw : d.globalIndex w = some i)
    (hvc : d.HasColumn v) (hwc : d.HasColumn w) : v.type = w.type ∧ v.index = w.index :=
  (C26_global_index_bijection d).2.1 v w hvc hwc (hv.trans hw.symm)

theorem hasColumn_erase (d : TableDesc) (v : PlonkVar) :
    d.HasColumn ⟨v.index, 0, true, v.type⟩ ↔ d.HasColumn v := Iff.rfl

theorem mem_permutedVars (cs : List (PlonkVar × PlonkVar)) (w : PlonkVar) :
    w ∈ permutedVars cs ↔ ∃ c ∈ cs, ∃ v, (v = c.1 ∨ v = c.2) ∧ w = ⟨v.index, 0, true, v.type⟩ := by
  simp only [permutedVars, List.mem_flatMap, List.mem_cons, List.not_mem_nil, or_false]
  constructor
  · rintro ⟨c, hc, rfl | rfl⟩
    · exact ⟨c, hc, c.1, .inl rfl, rfl⟩
    · exact ⟨c, hc, c.2, .inr rfl, rfl⟩
  · rintro ⟨c, hc, v, rfl | rfl, rfl⟩
    · exact ⟨c, hc, .inl rfl⟩
    · exact ⟨c, hc, .inr rfl⟩

theorem globalIndex_lt (d : TableDesc) (v : PlonkVar) (h : d.HasColumn v) (hs : v.type ≠ .selector) :
    ∃ i, d.globalIndex v = some i ∧ i < d.witness + d.publicInput + d.constant := by
  rcases v with ⟨i, r, l, t⟩
  cases t <;> simp_all [TableDesc.HasColumn, TableDesc.globalIndex] <;> omega

/-- The keys of the copy constraints. -/
theorem copyKeys {d : TableDesc} {cs : List (PlonkVar × PlonkVar)} (hc : CopiesInTable d cs)
    (hu : d.usableRows ≤ 2 ^ 32) :
    ∃ keys : List (CellKey × CellKey),
      (cs.mapM fun c => do return (← cellKey d c.1, ← cellKey d c.2)) = some keys ∧
      ∀ u v, (u, v) ∈ keys ↔ ∃ c ∈ cs, ∃ x y, d.cellOf c.1 = some x ∧ d.cellOf c.2 = some y ∧
        u = mkKey x.1 x.2.toNat ∧ v = mkKey y.1 y.2.toNat := by
  induction cs with
  | nil => exact ⟨[], rfl, by simp⟩
  | cons c cs ih =>
    obtain ⟨keys, hk, hm⟩ := ih (fun c' hc' => hc c' (List.mem_cons_of_mem _ hc'))
    obtain ⟨a1, a2, a3, a4⟩ := hc c (by simp) c.1 (.inl rfl)
    obtain ⟨b1, b2, b3, b4⟩ := hc c (by simp) c.2 (.inr rfl)
    obtain ⟨i, hi, _⟩ := globalIndex_lt d c.1 a1 a2
    obtain ⟨i', hi', _⟩ := globalIndex_lt d c.2 b1 b2
    have e1 := cellKey_eq d c.1 i hi a3 (by omega)
    have e2 := cellKey_eq d c.2 i' hi' b3 (by omega)
    have o1 : d.cellOf c.1 = some (i, c.1.rotation) := by simp [TableDesc.cellOf, hi]
    have o2 : d.cellOf c.2 = some (i', c.2.rotation) := by simp [TableDesc.cellOf, hi']
    refine ⟨(mkKey i c.1.rotation.toNat, mkKey i' c.2.rotation.toNat) :: keys, ?_, ?_⟩
    · rw [List.mapM_cons, hk, e1, e2]
      rfl
    · intro u v
      rw [List.mem_cons, hm]
      constructor
      · rintro (h | ⟨c', hc', h⟩)
        · obtain ⟨rfl, rfl⟩ := Prod.mk.inj h
          exact ⟨c, by simp, _, _, o1, o2, rfl, rfl⟩
        · exact ⟨c', List.mem_cons_of_mem _ hc', h⟩
      · rintro ⟨c', hc', x, y, hx, hy, rfl, rfl⟩
        rcases List.mem_cons.1 hc' with rfl | hc'
        · rw [o1] at hx
          rw [o2] at hy
          obtain rfl := Option.some.inj hx
          obtain rfl := Option.some.inj hy
          exact .inl rfl
        · exact .inr ⟨c', hc', x, y, hx, hy, rfl, rfl⟩

theorem PermSetup.facts {n : Nat} {d : TableDesc} {cs : List (PlonkVar × PlonkVar)}
    {order : List PlonkVar} {gi : List Nat} {delta : F} {mqc : Nat} {pre : PermData F}
    (h : PermSetup L A n d cs order gi delta mqc pre) :
    ∃ σ, PermFacts L n d cs gi delta mqc pre σ := by
  obtain ⟨fuel, hfuel, hd⟩ := h.data
  have hrows := h.rows
  have hn32 : 2 ^ n ≤ 2 ^ 32 := by rw [← hrows]; exact h.rows32
  have husable : d.usableRows < 2 ^ n := by rw [← hrows]; exact h.usable
  have hF2 := forall₂_of_mapM _ _ _ h.indices
  have hlen : gi.length = order.length := hF2.length_eq.symm
  have hget : ∀ i (hi : i < order.length) (hi' : i < gi.length),
      d.globalIndex order[i] = some gi[i] := fun i hi hi' =>
    (List.forall₂_iff_get.1 hF2).2 i hi hi'
  -- members of the order
  have hmem : ∀ w ∈ order, d.HasColumn w ∧ w.type ≠ .selector ∧ w.rotation = 0 ∧ w.relative = true := by
    intro w hw
    obtain ⟨c, hc, v, hv, rfl⟩ := (mem_permutedVars cs w).1 ((h.members w).1 hw)
    obtain ⟨a1, a2, _⟩ := h.copies c hc v hv
    exact ⟨(hasColumn_erase d v).2 a1, a2, rfl, rfl⟩
  have hnodup : gi.Nodup := by
    rw [List.nodup_iff_injective_getElem]
    intro ⟨i, hi⟩ ⟨j, hj⟩ hij
    simp only at hij
    have hi' : i < order.length := by omega
    have hj' : j < order.length := by omega
    have e1 := hget i hi' hi
    have e2 := hget j hj' hj
    rw [← hij] at e2
    obtain ⟨m1, _, m2, m3⟩ := hmem _ (List.getElem_mem hi')
    obtain ⟨k1, _, k2, k3⟩ := hmem _ (List.getElem_mem hj')
    obtain ⟨t1, t2⟩ := globalIndex_inj d _ _ _ e1 e2 m1 k1
    have : order[i] = order[j] := by
      rcases hoi : order[i] with ⟨a, b, c, e⟩
      rcases hoj : order[j] with ⟨a', b', c', e'⟩
      rw [hoi] at t1 t2 m2 m3
      rw [hoj] at t1 t2 k2 k3
      simp only at t1 t2 m2 m3 k2 k3
      subst t1 t2 m2 m3 k2 k3
      rfl
    have := (List.nodup_iff_injective_getElem.1 h.nodup) (a₁ := ⟨i, hi'⟩) (a₂ := ⟨j, hj'⟩) this
    simpa using this
  have hbound : ∀ c ∈ gi, c < d.witness + d.publicInput + d.constant := by
    intro c hc
    obtain ⟨i, hi, rfl⟩ := List.getElem_of_mem hc
    have hi' : i < order.length := by omega
    obtain ⟨m1, m2, _⟩ := hmem _ (List.getElem_mem hi')
    obtain ⟨x, hx, hlt⟩ := globalIndex_lt d _ m1 m2
    rw [hget i hi' hi] at hx
    obtain rfl := Option.some.inj hx
    exact hlt
  have hwb : d.witness + d.publicInput + d.constant ≤ 2 ^ 32 := by
    have := h.width
    unfold TableDesc.width at this
    omega
  have hcells : ∀ c ∈ cs, ∀ v, v = c.1 ∨ v = c.2 → ∃ i ∈ gi, d.globalIndex v = some i := by
    intro c hc v hv
    have hw : (⟨v.index, 0, true, v.type⟩ : PlonkVar) ∈ order :=
      (h.members _).2 ((mem_permutedVars cs _).2 ⟨c, hc, v, hv, rfl⟩)
    obtain ⟨i, hi, he⟩ := List.getElem_of_mem hw
    have hi' : i < gi.length := by omega
    refine ⟨gi[i], List.getElem_mem hi', ?_⟩
    rw [← globalIndex_erase, ← he]
    exact hget i hi hi'
  -- the permutation
  obtain ⟨keys, hkeys, hkm⟩ := copyKeys h.copies (by omega)
  have hpc : preprocessCopies fuel d cs = CycleRep.build fuel (gridKeys d) keys := by
    unfold preprocessCopies
    rw [hkeys]
    rfl
  simp only [permPreprocess, hpc, h.indices, Option.bind_eq_bind,
    Option.bind_some] at hd
  obtain ⟨perm, hperm, hd⟩ := Option.bind_eq_some_iff.1 hd
  obtain ⟨parts, hparts, hd⟩ := Option.bind_eq_some_iff.1 hd
  obtain rfl := Option.some.inj hd
  have hcard : Nat.card CellKey ≤ fuel := by
    simp only [Nat.card_eq_fintype_card, Fintype.card_prod, Fintype.card_fin]
    omega
  obtain ⟨s, σ, hb, hin, hout, hcyc⟩ := C14_permutation (gridKeys d) keys fuel hcard
  rw [hperm] at hb
  obtain rfl := Option.some.inj hb
  have hat : ∀ i < gi.length, ∀ j < 2 ^ n, perm.at (mkKey (gi.getD i 0) j) =
      σ (mkKey (gi.getD i 0) j) := by
    intro i hi j hj
    have hgi : gi.getD i 0 < d.witness + d.publicInput + d.constant := by
      rw [List.getD_eq_getElem _ _ hi]
      exact hbound _ (List.getElem_mem hi)
    obtain ⟨v1, v2⟩ := mkKey_val (gi.getD i 0) j (by omega) (by omega)
    have : mkKey (gi.getD i 0) j ∈ gridKeys d := by
      rw [C15_grid d h.width h.rows32, v1, v2, hrows]
      exact ⟨hgi, hj⟩
    rw [CycleRep.at, hin _ (.inl this)]
    rfl
  have hidx : ∀ i < gi.length, ∀ j < 2 ^ n, gi.idxOf (mkKey (gi.getD i 0) j).1.val = i := by
    intro i hi j hj
    have hgi : gi.getD i 0 < d.witness + d.publicInput + d.constant := by
      rw [List.getD_eq_getElem _ _ hi]
      exact hbound _ (List.getElem_mem hi)
    obtain ⟨v1, v2⟩ := mkKey_val (gi.getD i 0) j (by omega) (by omega)
    rw [v1, List.getD_eq_getElem _ _ hi]
    exact List.Nodup.idxOf_getElem hnodup i hi
  refine ⟨σ, hnodup, hbound, ?_, ?_, ?_, ?_, ?_, hcells, ?_, ?_, ?_, ?_, ?_, rfl, rfl⟩
  · simp [identityValues, hlen]
  · simp [permutationValues]
  · intro i hi j hj
    rw [List.getD_eq_getElem _ _ (by simpa [identityValues, ← hlen] using hi)]
    simp only [identityValues, List.getElem_map, List.getElem_range, identityRow_eq]
    rw [rowValue_map_range h.lib n h.small _ j hj, cellId, hidx i hi j hj, (mkKey_val _ j (by
      rw [List.getD_eq_getElem _ _ hi]
      have := hbound _ (List.getElem_mem hi)
      omega) (by omega)).2]
    simp [FftLib.domain]
  · intro i hi j hj
    rw [List.getD_eq_getElem _ _ (by simpa [permutationValues] using hi)]
    simp only [permutationValues, List.getElem_map]
    rw [rowValue_map_range h.lib n h.small _ j hj, permutationEntry,
      ← List.getD_eq_getElem gi 0 hi, hat i hi j hj]
    simp [cellId, FftLib.domain]
  · intro k hk
    have hsc : SameCycle σ k (σ k) := ⟨1, by simp⟩
    rw [hcyc] at hsc
    obtain ⟨⟨m, hm⟩, _⟩ := eqvGen_endpoint _ _ _ hsc (Ne.symm hk)
    have : ∃ c ∈ cs, ∃ v, (v = c.1 ∨ v = c.2) ∧ ∃ x, d.cellOf v = some x ∧
        k = mkKey x.1 x.2.toNat := by
      rcases hm with hm | hm
      · obtain ⟨c, hc, x, y, hx, hy, h1, h2⟩ := (hkm _ _).1 hm
        exact ⟨c, hc, c.1, .inl rfl, x, hx, h1⟩
      · obtain ⟨c, hc, x, y, hx, hy, h1, h2⟩ := (hkm _ _).1 hm
        exact ⟨c, hc, c.2, .inr rfl, y, hy, h2⟩
    obtain ⟨c, hc, v, hv, x, hx, rfl⟩ := this
    obtain ⟨i, hi, he⟩ := hcells c hc v hv
    obtain ⟨_, _, r1, r2⟩ := h.copies c hc v hv
    simp only [TableDesc.cellOf, he, Option.map_some, Option.some.injEq] at hx
    subst hx
    obtain ⟨q, hq, rfl⟩ := List.getElem_of_mem hi
    simp only [permCells, Finset.mem_image, Finset.mem_product, Finset.mem_range, Prod.exists]
    refine ⟨q, v.rotation.toNat, ⟨hq, by omega⟩, ?_⟩
    rw [List.getD_eq_getElem _ _ hq]
  · intro k l
    rw [hcyc]
    have : (fun u v => (u, v) ∈ keys) = fun u v => ∃ c ∈ cs, ∃ x y, d.cellOf c.1 = some x ∧
        d.cellOf c.2 = some y ∧ u = mkKey x.1 x.2.toNat ∧ v = mkKey y.1 y.2.toNat := by
      funext u v
      exact propext (hkm u v)
    rw [this]
  · intro j hj
    exact rowValue_map_range h.lib n h.small _ j hj
  · intro j hj
    exact rowValue_map_range h.lib n h.small _ j hj
  · intro j hj
    exact rowValue_map_range h.lib n h.small _ j hj
  · rw [hlen]; exact hparts

end Crypto3Zk
