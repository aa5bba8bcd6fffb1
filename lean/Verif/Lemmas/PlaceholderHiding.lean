import Mathlib.LinearAlgebra.Lagrange
import Verif.Spec.PlaceholderHiding
import Verif.Lemmas.PlonkTable
import Verif.Lemmas.PlaceholderPublic

/-!
# Lemmas for C104
-/

set_option linter.unusedSectionVars false

namespace Crypto3Zk

open Polynomial

theorem IsPadded.getD {F : Type} [Zero F] {u N : Nat} {tail : Nat → F} {c c' : List F} (h : IsPadded u N tail c c')
    (hc : c.length ≤ u) {i : Nat} (hi : i < N) :
    c'.getD i 0 = if i < u then c.getD i 0 else tail (i - u) := by
  obtain ⟨-, h1, h2, h3⟩ := h
  simp only [List.getD_eq_getElem?_getD]
  by_cases hu : i < u
  · rw [if_pos hu]
    by_cases hl : i < c.length
    · rw [h1 i hl]
    · rw [h2 i (by omega) hu, List.getElem?_eq_none (by omega)]; rfl
  · rw [if_neg hu, h3 i (by omega) hi]; rfl

/-- The columns depend only on the values drawn for them. -/
theorem fillColumns_congr {F : Type} {r s : Nat → F} (u p : Nat) : ∀ (cs : List (List F)) (k : Nat),
    (∀ i, k ≤ i → r i = s i) → (fillColumns r u p k cs) = (fillColumns s u p k cs)
  | [], _, _ => rfl
  | c :: cs, k, h => by
    simp only [fillColumns]
    rw [fillColumns_congr u p cs (k + (p - u)) (fun i hi => h i (by omega))]
    simp only [Prod.mk.injEq, List.cons.injEq, and_true, true_and]
    unfold fillRandom
    congr 1
    exact List.map_congr_left fun i _ => h _ (by omega)

/-- `zk_padding`, written out. -/
theorem zkPadding_eq {F : Type} [Zero F] (r : Nat → F) (T : PlonkTable F) {u p : Nat} (hu : T.rowsAmount = u)
    (hp : paddedRows u = some p) :
    zkPadding r T = some (⟨(fillColumns r u p 0 (T.witnesses.map fun c => resize c u 0)).1,
      (T.publicInputs.map fun c => resize c u 0).map (fun c => resize c p 0),
      (fillColumns r u p (T.witnesses.length * (p - u)) (T.constants.map fun c => resize c u 0)).1,
      (fillColumns r u p ((T.witnesses.length + T.constants.length) * (p - u))
        (T.selectors.map fun c => resize c u 0)).1⟩, p) := by
  unfold zkPadding
  simp only [hu, hp, fillColumns_count, Nat.zero_add, List.length_map, ← Nat.add_mul]
  rfl

/-- The witness columns after `zk_padding`. -/
theorem zkPadding_witness {F : Type} [Zero F] {r : Nat → F} {T t : PlonkTable F} {u p : Nat} (hu : T.rowsAmount = u)
    (hp : paddedRows u = some p) (hup : u ≤ p) (h : zkPadding r T = some (t, p)) {i : Nat}
    (hi : i < T.witnesses.length) : ∃ c', t.witnesses[i]? = some c' ∧
      IsPadded u p (fun k => r (i * (p - u) + k)) (T.witnesses.getD i []) c' := by
  rw [zkPadding_eq r T hu hp, Option.some_inj, Prod.mk.injEq] at h
  obtain ⟨rfl, -⟩ := h
  refine ⟨fillRandom r u p (i * (p - u)) (resize (T.witnesses.getD i []) u 0), ?_, ?_⟩
  · simp only [fillColumns_get, List.getElem?_map, List.getElem?_eq_getElem hi, Option.map_some, Nat.zero_add,
      List.getD_eq_getElem?_getD, Option.getD_some]
  · refine fillRandom_spec r u p _ _ ?_ hup
    rw [List.getD_eq_getElem?_getD, List.getElem?_eq_getElem hi, Option.getD_some]
    exact ((rowsAmount_le T u).1 hu.le).1 _ (List.getElem_mem hi)

theorem rowsAmount_congr {F : Type} {t1 t2 : PlonkTable F} {N : Nat} (h1 : ∀ c ∈ t1.witnesses, c.length = N)
    (h2 : ∀ c ∈ t2.witnesses, c.length = N) (hc : t1.witnesses.length = t2.witnesses.length)
    (hp : t1.publicInputs = t2.publicInputs) (hk : t1.constants = t2.constants) (hs : t1.selectors = t2.selectors) :
    t1.rowsAmount = t2.rowsAmount := by
  have key : ∀ b, t1.rowsAmount ≤ b ↔ t2.rowsAmount ≤ b := by
    intro b
    rw [rowsAmount_le, rowsAmount_le, hp, hk, hs]
    refine and_congr_left fun _ => ?_
    rcases hw1 : t1.witnesses with _ | ⟨a, l⟩
    · rw [hw1] at hc
      rw [List.length_eq_zero_iff.1 hc.symm]
    · rcases hw2 : t2.witnesses with _ | ⟨a', l'⟩
      · rw [hw1, hw2] at hc; simp at hc
      · rw [← hw1, ← hw2]
        constructor
        · intro h c hc'
          rw [h2 c hc', ← h1 a (by simp [hw1])]
          exact h a (by simp [hw1])
        · intro h c hc'
          rw [h1 c hc', ← h2 a' (by simp [hw2])]
          exact h a' (by simp [hw2])
  exact le_antisymm ((key _).2 le_rfl) ((key _).1 le_rfl)

theorem length_fillColumns {F : Type} {r : Nat → F} {u p k : Nat} (hup : u ≤ p) {cs : List (List F)}
    (hcs : ∀ c ∈ cs, c.length = u) : ∀ c ∈ (fillColumns r u p k cs).1, c.length = p := by
  intro c hc
  obtain ⟨i, hi, rfl⟩ := List.mem_iff_getElem.1 hc
  have h := fillColumns_get r u p k cs i
  rw [List.getElem?_eq_getElem hi] at h
  rw [fillColumns_length] at hi
  rw [List.getElem?_eq_getElem hi, Option.map_some, Option.some_inj] at h
  rw [h]
  have := hcs _ (List.getElem_mem hi)
  simp [fillRandom]
  omega

variable {F : Type} [Field F] {L : FftLib F} {A n : Nat}

theorem columnPoly_witness {t : PlonkTable F} {i : Nat} {c : List F} (h : t.witnesses[i]? = some c) :
    columnPoly L t i .witness = dfsPoly L c := by
  unfold columnPoly PlonkTable.columnsOf
  simp only [Option.getD_some, List.getD_eq_getElem?_getD]
  rw [h]; rfl

/-- Values on some of the rows and at some other points: there is such a polynomial. -/
theorem exists_mask_values [DecidableEq F] (hL : L.Lawful A) (hn : n ≤ A) (u : Nat) (v : Nat → F) (Z : Finset F)
    (w : F → F) (hcard : Z.card + u ≤ 2 ^ n) (hZ : ∀ z ∈ Z, z ^ 2 ^ n ≠ 1) :
    ∃ p : F[X], p.natDegree < 2 ^ n ∧ (∀ j < u, p.eval (L.root n ^ j) = v j) ∧ ∀ z ∈ Z, p.eval z = w z := by
  have hu : u ≤ 2 ^ n := by omega
  have hrow : ∀ j, L.root n ^ j ∉ Z := fun j hj => hZ _ hj (by
    rw [← pow_mul, mul_comm, pow_mul, root_pow_card hL n hn, one_pow])
  have hinj : ∀ i j, i < u → j < u → L.root n ^ i = L.root n ^ j → i = j := fun i j hi hj he =>
    elem_injective hL n hn i j (by omega) (by omega) he
  let r : F → F := fun x => if h : ∃ j < u, L.root n ^ j = x then v h.choose else w x
  have hr : ∀ j < u, r (L.root n ^ j) = v j := by
    intro j hj
    have h : ∃ i < u, L.root n ^ i = L.root n ^ j := ⟨j, hj, rfl⟩
    simp only [r, dif_pos h]
    rw [hinj _ _ h.choose_spec.1 hj h.choose_spec.2]
  let s : Finset F := Z ∪ (Finset.range u).image fun j => L.root n ^ j
  have hs : s.card ≤ 2 ^ n := by
    refine (Finset.card_union_le _ _).trans ?_
    have := Finset.card_image_le (s := Finset.range u) (f := fun j => L.root n ^ j)
    rw [Finset.card_range] at this
    omega
  have hid : Set.InjOn (id : F → F) s := Function.injective_id.injOn
  refine ⟨Lagrange.interpolate s id r, ?_, ?_, ?_⟩
  · by_cases h0 : Lagrange.interpolate s id r = 0
    · rw [h0]; simp
    · have h := Lagrange.degree_interpolate_lt r hid
      rw [degree_eq_natDegree h0] at h
      exact lt_of_lt_of_le (by exact_mod_cast h) hs
  · intro j hj
    have := Lagrange.eval_interpolate_at_node r hid (i := L.root n ^ j)
      (Finset.mem_union_right _ (Finset.mem_image_of_mem _ (Finset.mem_range.2 hj)))
    rw [← hr j hj]
    exact this
  · intro z hz
    have := Lagrange.eval_interpolate_at_node r hid (i := z) (Finset.mem_union_left _ hz)
    refine Eq.trans this ?_
    simp only [r]
    rw [dif_neg]
    rintro ⟨j, -, rfl⟩
    exact hrow j hz

/-- Values on some of the rows and zeros at some other points. -/
theorem exists_mask [DecidableEq F] (hL : L.Lawful A) (hn : n ≤ A) (u : Nat) (v : Nat → F) (Z : Finset F)
    (hcard : Z.card + u ≤ 2 ^ n) (hZ : ∀ z ∈ Z, z ^ 2 ^ n ≠ 1) :
    ∃ p : F[X], p.natDegree < 2 ^ n ∧ (∀ j < u, p.eval (L.root n ^ j) = v j) ∧ ∀ z ∈ Z, p.eval z = 0 :=
  exists_mask_values hL hn u v Z (fun _ => 0) hcard hZ

end Crypto3Zk
