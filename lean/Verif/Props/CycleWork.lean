import Verif.Lemmas.CycleWork
import Verif.Props.CycleRepresentation

/-!
# C107: processing copy constraints takes little time
-/

namespace Crypto3Zk

open Equiv.Perm

variable {K : Type} [DecidableEq K] [Finite K]

private theorem build_sized [Fintype K] (grid : List K) (cs : List (K × K)) (fuel : Nat)
    (hf : Nat.card K ≤ fuel) (hn : (CycleRep.cells grid cs).ncard < 2 ^ 32) :
    ∃ s σ a, CycleRep.build fuel grid cs = some s ∧
      CycleRep.Inv s (fun k => k ∈ grid ∨ ∃ c ∈ cs, k = c.1 ∨ k = c.2) (fun u v => (u, v) ∈ cs) σ a ∧
      s.Sized ∧ CycleRep.totalIterations fuel (CycleRep.start grid) cs ≤ s.potential := by
  have h0 : CycleRep.Inv (⟨fun _ => none, fun _ => none, fun _ => none⟩ : CycleRep K) (fun _ => False)
      (fun _ _ => False) 1 id := by
    refine ⟨by simp, by simp, by simp, by simp, by simp, by simp, by simp, ?_⟩
    intro k l
    constructor
    · rintro ⟨n, rfl⟩
      simp only [one_zpow, Equiv.Perm.coe_one, id_eq]; exact .refl _
    · intro h
      induction h with
      | rel _ _ h => exact h.elim
      | refl => exact SameCycle.refl _ _
      | symm _ _ _ ih => exact ih.symm
      | trans _ _ _ _ _ ih1 ih2 => exact ih1.trans ih2
  obtain ⟨σ1, a1, h1⟩ := CycleRep.inv_grid grid _ _ _ _ h0
  obtain ⟨s, σ, a, e, h2, z, p⟩ := CycleRep.sized_constraints cs _ _ _ _ _ h1
    (CycleRep.sized_start grid) fuel hf (by simpa [CycleRep.cells] using hn)
  refine ⟨s, σ, a, e, ?_, z, le_trans (Nat.le_add_left _ _) p⟩
  simpa using h2

/-- C107: the loops that join cycles make at most `n * log2 n` iterations in total, where `n` is the
number of cells, for every sequence of copy constraints. A table has fewer than `2 ^ 32` cells. -/
theorem C107_total_work (grid : List K) (cs : List (K × K)) (fuel : Nat) (hf : Nat.card K ≤ fuel)
    (n : Nat) (hn : (CycleRep.cells grid cs).ncard = n) (hn' : n < 2 ^ 32) :
    CycleRep.totalIterations fuel (CycleRep.start grid) cs ≤ n * Nat.log 2 n := by
  classical
  have := Fintype.ofFinite K
  obtain ⟨s, σ, a, -, h, z, p⟩ := build_sized grid cs fuel hf (by omega)
  have hk := CycleRep.known_eq h z
  have hk' : s.known = n := by rw [hk, ← hn]; rfl
  exact p.trans (by simpa [hk'] using s.potential_le)

/-- C107, the reason: the size recorded for the label of a cell is the number of cells that the
constraints link to it. -/
theorem C107_sizes (grid : List K) (cs : List (K × K)) (fuel : Nat) (hf : Nat.card K ≤ fuel)
    (hn : (CycleRep.cells grid cs).ncard < 2 ^ 32) :
    ∃ s, CycleRep.build fuel grid cs = some s ∧
      ∀ k ∈ CycleRep.cells grid cs, ∃ label, s.aux k = some label ∧
        s.sizes label = some {l | Relation.EqvGen (fun u v => (u, v) ∈ cs) k l}.ncard := by
  classical
  have := Fintype.ofFinite K
  obtain ⟨s, σ, a, e, h, z, -⟩ := build_sized grid cs fuel hf hn
  refine ⟨s, e, fun k hk => ⟨a k, h.auxIn k hk, ?_⟩⟩
  rw [z.sizes k (a k) (h.auxIn k hk), ← Set.ncard_coe_finset]
  congr 2
  ext l
  rw [Finset.mem_coe, CycleRep.mem_members, Set.mem_setOf_eq, ← h.closure, ← h.cycle_iff z k hk]
  exact ⟨fun hc => (h.repCycle k hk).trans hc, fun hc => (h.repCycle k hk).symm.trans hc⟩

/-- four cells linked into one cycle: the two last loops make one and two iterations, and the label
carries the size four -/
example : ((CycleRep.build 4 [0, 1, 2, 3] [((0 : Fin 4), 1), (2, 3), (0, 3)]).map fun s =>
      ([0, 1, 2, 3].map s.aux, s.sizes 0)) =
      some ([some 0, some 0, some 0, some 0], some 4) ∧
    (CycleRep.build 1 [0, 1, 2, 3] [((0 : Fin 4), 1), (2, 3)]).isSome = true ∧
    (CycleRep.build 1 [0, 1, 2, 3] [((0 : Fin 4), 1), (2, 3), (0, 3)]).isSome = false ∧
    (CycleRep.build 2 [0, 1, 2, 3] [((0 : Fin 4), 1), (2, 3), (0, 3)]).isSome = true := by decide

/-- a large cycle is not walked through when a cell is linked to it, on whichever side it stands -/
example : (CycleRep.build 1 [0, 1, 2, 3] [((0 : Fin 4), 1), (2, 0), (3, 2)]).isSome = true ∧
    (CycleRep.build 1 [0, 1, 2, 3] [((0 : Fin 4), 1), (0, 2), (2, 3)]).isSome = true := by decide

example : CycleRep.totalIterations 4 (CycleRep.start [0, 1, 2, 3]) [((0 : Fin 4), 1), (2, 3), (0, 3)] ≤
    4 * Nat.log 2 4 :=
  C107_total_work [0, 1, 2, 3] _ 4 (by simp) 4 (by
    have : CycleRep.cells [0, 1, 2, 3] [((0 : Fin 4), 1), (2, 3), (0, 3)] = Set.univ := by
      ext k
      simp only [CycleRep.cells, Set.mem_setOf_eq, Set.mem_univ, iff_true]
      left
      revert k
      decide
    rw [this, Set.ncard_univ]
    simp) (by omega)

end Crypto3Zk
