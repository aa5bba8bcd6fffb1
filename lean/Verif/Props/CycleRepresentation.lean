import Verif.Spec.TableDesc
import Verif.Lemmas.CycleRepresentation
import Verif.Props.Expression

/-!
# C14, C15, C26: copy constraints, the generated permutation, column numbering
-/

namespace Crypto3Zk

open Equiv.Perm

variable {K : Type} [DecidableEq K] [Finite K]

/-- C14: for every initial grid and every sequence of copy constraints the construction terminates
without touching a missing key (any fuel of at least the number of keys gives a result); the
mapping is a permutation of the touched cells and two touched cells are on one cycle exactly when
the constraints link them. -/
theorem C14_permutation (grid : List K) (cs : List (K × K)) (fuel : Nat)
    (hf : Nat.card K ≤ fuel) :
    ∃ (s : CycleRep K) (σ : Equiv.Perm K), CycleRep.build fuel grid cs = some s ∧
      (∀ k, (k ∈ grid ∨ ∃ c ∈ cs, k = c.1 ∨ k = c.2) → s.mapping k = some (σ k)) ∧
      (∀ k, ¬ (k ∈ grid ∨ ∃ c ∈ cs, k = c.1 ∨ k = c.2) → s.mapping k = none ∧ σ k = k) ∧
      (∀ k l, SameCycle σ k l ↔ Relation.EqvGen (fun u v => (u, v) ∈ cs) k l) := by
  obtain ⟨s, σ, a, e, h⟩ := CycleRep.build_spec grid cs fuel hf
  exact ⟨s, σ, e, h.mapIn, fun k hk => ⟨h.mapOut k hk, h.fixOut k hk⟩, h.closure⟩

/-- C15: values satisfy every copy constraint exactly when they are invariant under the
permutation. -/
theorem C15_copy_iff_invariant {F : Type*} (grid : List K) (cs : List (K × K)) (fuel : Nat)
    (s : CycleRep K) (hf : Nat.card K ≤ fuel) (hs : CycleRep.build fuel grid cs = some s)
    (val : K → F) :
    (∀ c ∈ cs, val c.1 = val c.2) ↔ ∀ k m, s.mapping k = some m → val k = val m := by
  obtain ⟨s', σ, e, h1, h2, h3⟩ := C14_permutation grid cs fuel hf
  rw [hs] at e
  obtain rfl : s = s' := by simpa using e
  constructor
  · intro hc k m hkm
    have hm : m = σ k := by
      by_cases hk : k ∈ grid ∨ ∃ c ∈ cs, k = c.1 ∨ k = c.2
      · rw [h1 k hk] at hkm; simpa using hkm.symm
      · rw [(h2 k hk).1] at hkm; simp at hkm
    subst hm
    have hgen := (h3 k (σ k)).1 ⟨1, by simp⟩
    generalize σ k = m at hgen
    clear hkm
    induction hgen with
    | rel x y hxy => exact hc _ hxy
    | refl => rfl
    | symm _ _ _ ih => exact ih.symm
    | trans _ _ _ _ _ ih1 ih2 => exact ih1.trans ih2
  · intro hinv c hc
    have hσ : ∀ k, val k = val (σ k) := by
      intro k
      by_cases hk : k ∈ grid ∨ ∃ c ∈ cs, k = c.1 ∨ k = c.2
      · exact hinv k _ (h1 k hk)
      · rw [(h2 k hk).2]
    have hcyc : SameCycle σ c.1 c.2 := (h3 _ _).2 (.rel _ _ hc)
    obtain ⟨n, hn⟩ := hcyc.exists_nat_pow_eq
    rw [← hn]
    clear hn hcyc hc
    induction n with
    | zero => simp
    | succ n ih => rw [pow_succ', Equiv.Perm.mul_apply, ← hσ]; exact ih

/-- C15 for a table: with the preprocessor's own cell keys, the copy constraints on variables hold
exactly when the table is invariant. -/
theorem C15_table {F : Type*} (d : TableDesc) (cs : List (PlonkVar × PlonkVar)) (fuel : Nat)
    (hf : 2 ^ 64 ≤ fuel) (s) (hs : preprocessCopies fuel d cs = some s)
    (val : Fin (2 ^ 32) × Fin (2 ^ 32) → F) :
    (∀ c ∈ cs, ∀ k l, cellKey d c.1 = some k → cellKey d c.2 = some l → val k = val l) ↔
      ∀ k m, s.mapping k = some m → val k = val m := by
  simp only [preprocessCopies, Option.bind_eq_bind, Option.bind_eq_some_iff] at hs
  obtain ⟨keys, hk, hb⟩ := hs
  have hcard : Nat.card (Fin (2 ^ 32) × Fin (2 ^ 32)) ≤ fuel := by
    simp only [Nat.card_eq_fintype_card, Fintype.card_prod, Fintype.card_fin]
    omega
  rw [← C15_copy_iff_invariant (gridKeys d) keys fuel s hcard hb val]
  clear hb hcard hf
  induction cs generalizing keys with
  | nil => simp only [List.mapM_nil, Option.pure_def, Option.some.injEq] at hk; subst hk; simp
  | cons c cs ih =>
    simp only [List.mapM_cons, Option.bind_eq_bind, Option.bind_eq_some_iff, Option.pure_def,
      Option.some.injEq] at hk
    obtain ⟨kl, ⟨k1, hk1, k2, hk2, rfl⟩, rest, hr, rfl⟩ := hk
    have := ih rest hr
    simp only [List.mem_cons, forall_eq_or_imp, hk1, hk2, Option.some.injEq]
    constructor
    · rintro ⟨h1, h2⟩; exact ⟨h1 _ _ rfl rfl, this.1 h2⟩
    · rintro ⟨h1, h2⟩; exact ⟨by rintro k l rfl rfl; exact h1, this.2 h2⟩

/-- C15, which cells take part: for a table whose dimensions fit 32 bits, the grid the permutation
starts from is exactly the cells of witness, public input and constant columns in all rows. Selector
cells are not in it. -/
theorem C15_grid (d : TableDesc) (hw : d.width ≤ 2 ^ 32) (hr : d.rows ≤ 2 ^ 32)
    (k : Fin (2 ^ 32) × Fin (2 ^ 32)) :
    k ∈ gridKeys d ↔ k.1.val < d.witness + d.publicInput + d.constant ∧ k.2.val < d.rows := by
  have hws : d.width - d.selector = d.witness + d.publicInput + d.constant := by
    simp [TableDesc.width]
  have hle : d.witness + d.publicInput + d.constant ≤ 2 ^ 32 := by
    simp [TableDesc.width] at hw; omega
  unfold gridKeys
  rw [hws]
  simp only [List.mem_flatMap, List.mem_range, List.mem_map]
  constructor
  · rintro ⟨i, hi, j, hj, rfl⟩
    simp only
    rw [Nat.mod_eq_of_lt (by omega), Nat.mod_eq_of_lt (by omega)]
    exact ⟨hi, hj⟩
  · rintro ⟨h1, h2⟩
    refine ⟨k.1.val, h1, k.2.val, h2, ?_⟩
    ext
    · exact Nat.mod_eq_of_lt k.1.isLt
    · exact Nat.mod_eq_of_lt k.2.isLt

example : (⟨⟨2, by decide⟩, ⟨1, by decide⟩⟩ : Fin (2 ^ 32) × Fin (2 ^ 32)) ∈ gridKeys ⟨1, 1, 1, 1, 2, 2⟩ :=
  (C15_grid _ (by decide) (by decide) _).2 (by decide)

/-- C15: a constraint does not depend on the order in which its two variables are given. -/
theorem C15_constraint_symmetric (a b : PlonkVar) : mkCopyConstraint a b = mkCopyConstraint b a := by
  simp only [mkCopyConstraint, C11_gt_iff]
  by_cases h : a.relative = false ∧ b.relative = false
  · rw [if_pos h, if_pos h.symm]
    rcases C11_strict_total_order.1 a b with ⟨h1, h2, h3⟩ | ⟨h1, h2, h3⟩ | ⟨h1, h2, h3⟩
    · simp [h1, h3]
    · have := (C11_eq_iff a b).1 h2
      subst this; rfl
    · simp [h1, h3]
  · rw [if_neg h, if_neg (fun h' => h h'.symm)]

/-- a three-cell instance: two constraints chain three of four cells into one cycle. -/
example : ((CycleRep.build 4 [0, 1, 2, 3] [((0 : Fin 4), 1), (2, 1)]).map fun s =>
    [0, 1, 2, 3].map s.mapping) = some [some 1, some 2, some 0, some 3] := by decide

/-! ## C26 -/

/-- C26: column numbering is a bijection between the columns (type and index) of the table and
`0 .. table_width - 1`. -/
theorem C26_global_index_bijection (d : TableDesc) :
    (∀ v, d.HasColumn v → ∃ i, d.globalIndex v = some i ∧ i < d.width) ∧
    (∀ v w, d.HasColumn v → d.HasColumn w → d.globalIndex v = d.globalIndex w →
      v.type = w.type ∧ v.index = w.index) ∧
    (∀ i < d.width, ∃ v, d.HasColumn v ∧ d.globalIndex v = some i) := by
  refine ⟨?_, ?_, ?_⟩
  · intro v hv
    rcases v with ⟨i, r, l, t⟩
    cases t <;> simp_all [TableDesc.HasColumn, TableDesc.globalIndex, TableDesc.width] <;> omega
  · intro v w hv hw he
    rcases v with ⟨i, r, l, t⟩
    rcases w with ⟨i', r', l', t'⟩
    cases t <;> cases t' <;> simp_all [TableDesc.HasColumn, TableDesc.globalIndex] <;> omega
  · intro i hi
    simp only [TableDesc.width] at hi
    by_cases h1 : i < d.witness
    · exact ⟨⟨i, 0, true, .witness⟩, h1, rfl⟩
    · by_cases h2 : i < d.witness + d.publicInput
      · exact ⟨⟨i - d.witness, 0, true, .publicInput⟩, by simp [TableDesc.HasColumn]; omega, by
          simp [TableDesc.globalIndex]; omega⟩
      · by_cases h3 : i < d.witness + d.publicInput + d.constant
        · exact ⟨⟨i - (d.witness + d.publicInput), 0, true, .constant⟩, by
            simp [TableDesc.HasColumn]; omega, by simp [TableDesc.globalIndex]; omega⟩
        · exact ⟨⟨i - (d.witness + d.publicInput + d.constant), 0, true, .selector⟩, by
            simp [TableDesc.HasColumn]; omega, by simp [TableDesc.globalIndex]; omega⟩

example : (⟨3, 1, 2, 4, 5, 8⟩ : TableDesc).globalIndex ⟨1, 0, true, .constant⟩ = some 5 := by decide

end Crypto3Zk
