import Verif.Lemmas.GateArg
import Verif.Props.PlonkTable
import Verif.Props.FRI
import Verif.Spec.PermutationArg

/-!
# C33 (gate argument) and C34
-/

set_option linter.unusedSectionVars false

namespace Crypto3Zk

open Polynomial

variable {F : Type} [Field F] [DecidableEq F] {S : Type} {L : FftLib F} {A n usable : Nat}
  {t : PlonkTable F} {gates : List (Gate F)} {mgd : Nat}

/-! ## C33 for the gate argument -/

/-- C33 (gate argument): at every point `y`, on the true evaluations of the columns, the verifier
computes the evaluation of the prover's polynomial, and its transcript ends in the same state. -/
theorem C33_gates (h : GateSetup L A n usable t gates mgd) (ch : S → F × S) (mask p : F[X])
    (st st' : S) (hp : gateProve ch L n t gates mgd mask st = some (p, st')) (y : F)
    (evaluations : Nat → Int → ColumnType → Option F)
    (he : TrueEvaluations L n t gates y evaluations) :
    gateVerify ch gates evaluations (mask.eval y) st = some (p.eval y, st') := by
  obtain ⟨q, hq, hval⟩ := gateProve_eval h ch mask st
  rw [hq] at hp
  simp only [Option.some.injEq, Prod.mk.injEq] at hp
  obtain ⟨rfl, rfl⟩ := hp
  have hg : verifyGates evaluations (ch st).1 gates 1 0 =
      some (0 + 1 * evalPoly (gateValues gates fun v => (varPoly L n t v).eval y) (ch st).1) := by
    apply verifyGates_eq
    intro g hg
    obtain ⟨h1, h2⟩ := he g hg
    refine ⟨?_, ?_⟩
    · rw [h1, varPoly, shiftDfs_eval]
      simp
    · intro c hc v hv
      rw [h2 c hc v hv, varPoly, shiftDfs_eval]
  simp only [gateVerify, hg, Option.bind_eq_bind, Option.bind_some, zero_add, one_mul, hval]

/-! ## C34 -/

/-- C34: in the setting, the prover finishes; it draws exactly one challenge. -/
theorem C34_prover_succeeds (h : GateSetup L A n usable t gates mgd) (ch : S → F × S) (mask : F[X])
    (st : S) : ∃ p, gateProve ch L n t gates mgd mask st = some (p, (ch st).2) := by
  obtain ⟨p, hp, -⟩ := gateProve_eval h ch mask st
  exact ⟨p, hp⟩

/-- the row's value of an expression. -/
theorem evaluateAtRow_cyclic (hfits : n ≤ 64) (hrect : t.Rectangular (2 ^ n)) (hrows : t.rowsAmount = 2 ^ n)
    (c : Expr PlonkVar F) (j : Nat) (hc : ∀ v ∈ c.visitVars, t.HasVar v) :
    evaluateAtRow c j t = some (c.eval (t.cyclicCell (2 ^ n) j)) := by
  unfold evaluateAtRow
  apply evalM_eq_eval
  intro v hv
  obtain ⟨cols, hcols, hi⟩ := hc v hv
  have hmem := List.getElem_mem hi
  have hlen : cols[v.index].length = 2 ^ n := by
    obtain ⟨h1, h2, h3, h4⟩ := hrect
    cases htype : v.type <;> rw [htype] at hcols <;> simp only [PlonkTable.columnsOf] at hcols
    · cases hcols; exact h1 _ hmem
    · cases hcols; exact h2 _ hmem
    · cases hcols; exact h3 _ hmem
    · cases hcols; exact h4 _ hmem
    · exact absurd hcols (by simp)
  obtain ⟨r, hr, hr1, hr2⟩ := C27_rotation_cyclic_pow2 n j v.rotation hfits
  have hrn : (((j : Int) + v.rotation) % ((2 ^ n : Nat) : Int)).toNat = r := by
    rw [← hr2]; simp
  simp only [PlonkTable.cell, hcols, hrows, hr, Option.bind_eq_bind, Option.bind_some,
    List.getElem?_eq_getElem hi, PlonkTable.cyclicCell, Option.getD_some,
    List.getD_eq_getElem?_getD, hrn, List.getElem?_eq_getElem (show r < cols[v.index].length by omega)]

/-- the row's value of a constraint. -/
theorem evaluateAtRow_eq (h : GateSetup L A n usable t gates mgd) (c : Expr PlonkVar F) (j : Nat)
    (hc : ∀ v ∈ c.visitVars, t.HasVar v) :
    evaluateAtRow c j t = some (c.eval (t.cyclicCell (2 ^ n) j)) :=
  evaluateAtRow_cyclic h.fits h.rect h.rows c j hc

/-- The value of the prover's polynomial in a row: zero in the masked rows, and otherwise the sum over the
constraints, in order, of the power of `theta`, the selector and the constraint's value in this row. -/
theorem gateProve_row (h : GateSetup L A n usable t gates mgd) (ch : S → F × S) (p : F[X])
    (st st' : S) (hp : gateProve ch L n t gates mgd (rowMask L n usable) st = some (p, st'))
    (j : Nat) (hj : j < 2 ^ n) :
    p.eval (L.root n ^ j) =
      if j < usable then evalPoly (gateValues gates (t.cyclicCell (2 ^ n) j)) (ch st).1 else 0 := by
  obtain ⟨q, hq, hval⟩ := gateProve_eval h ch (rowMask L n usable) st
  rw [hq] at hp
  simp only [Option.some.injEq, Prod.mk.injEq] at hp
  obtain ⟨rfl, rfl⟩ := hp
  rw [hval, mask_eval_row h.lib n h.small usable j hj]
  have hg : gateValues gates (fun v => (varPoly L n t v).eval (L.root n ^ j)) =
      gateValues gates (t.cyclicCell (2 ^ n) j) := by
    unfold gateValues
    refine List.flatMap_congr fun g hg => ?_
    obtain ⟨h1, h2⟩ := h.inTable g hg
    refine List.map_congr_left fun c hc => ?_
    have hs := varPoly_eval_row h.lib n h.small t h.rect ⟨g.selectorIndex, 0, false, .selector⟩
      ⟨t.selectors, rfl, h1⟩ j
    simp only [hs]
    congr 1
    exact C12_eval_congr c _ _ fun v hv => varPoly_eval_row h.lib n h.small t h.rect v (h2 c hc v hv) j
  rw [hg]
  split_ifs <;> ring

theorem mem_gateValues (h : GateSetup L A n usable t gates mgd) (j : Nat) (hj : j < 2 ^ n) :
    (∀ x ∈ gateValues gates (t.cyclicCell (2 ^ n) j), x = 0) ↔
      ∀ g ∈ gates, t.selectorAt g.selectorIndex j ≠ 0 →
        ∀ c ∈ g.constraints, evaluateAtRow c j t = some 0 := by
  have hsel : ∀ i, t.cyclicCell (2 ^ n) j ⟨i, 0, false, .selector⟩ = t.selectorAt i j := by
    intro i
    have : (((j : Int) + 0) % ((2 ^ n : Nat) : Int)).toNat = j := by
      rw [add_zero, ← Int.natCast_mod, Nat.mod_eq_of_lt hj, Int.toNat_natCast]
    simp only [PlonkTable.cyclicCell, PlonkTable.selectorAt, PlonkTable.columnsOf, Option.getD_some, this]
  simp only [gateValues, List.mem_flatMap, List.mem_map, forall_exists_index, and_imp, hsel]
  constructor
  · intro hx g hg hs c hc
    rw [evaluateAtRow_eq h c j ((h.inTable g hg).2 c hc)]
    have := hx _ g hg c hc rfl
    rw [(mul_eq_zero.1 this).resolve_left hs]
  · rintro hx x g hg c hc rfl
    by_cases hs : t.selectorAt g.selectorIndex j = 0
    · rw [hs, zero_mul]
    · have := hx g hg hs c hc
      rw [evaluateAtRow_eq h c j ((h.inTable g hg).2 c hc), Option.some.injEq] at this
      rw [this, mul_zero]

theorem evalPoly_all_zero (l : List F) (h : ∀ x ∈ l, x = 0) (y : F) : evalPoly l y = 0 := by
  induction l with
  | nil => rfl
  | cons a l ih => rw [evalPoly_cons, h a (by simp), ih (fun x hx => h x (by simp [hx]))]; ring

/-- Outside of fewer than `length` points, a non-zero coefficient vector has a non-zero value. -/
theorem exists_bad (l : List F) : ∃ bad : Finset F, bad.card ≤ l.length ∧
    ∀ x, x ∉ bad → evalPoly l x = 0 → ∀ c ∈ l, c = 0 := by
  by_cases h0 : toPoly l = 0
  · refine ⟨∅, by simp, ?_⟩
    intro x _ _ c hc
    obtain ⟨i, hi, rfl⟩ := List.getElem_of_mem hc
    have := coeff_toPoly l i
    rw [h0, coeff_zero, List.getD_eq_getElem?_getD, List.getElem?_eq_getElem hi] at this
    exact this.symm
  · refine ⟨(toPoly l).roots.toFinset, ?_, ?_⟩
    · refine (Multiset.toFinset_card_le _).trans ((card_roots' _).trans ?_)
      have := degree_toPoly l
      rw [degree_eq_natDegree h0] at this
      exact (WithBot.coe_lt_coe.1 this).le
    · intro x hx he
      exfalso
      apply hx
      rw [Multiset.mem_toFinset, mem_roots h0, IsRoot, eval_toPoly, he]

/-- C34, row by row: for a fixed table, gates and row there are at most as many bad challenges as
constraints. For any other challenge the prover's polynomial is zero at the row exactly when the row is not
one of the usable ones or every constraint of every gate whose selector is not zero holds there. -/
theorem C34_row (h : GateSetup L A n usable t gates mgd) (j : Nat) (hj : j < 2 ^ n) :
    ∃ bad : Finset F, bad.card ≤ constraintCount gates ∧
      ∀ (S : Type) (ch : S → F × S) (st st' : S) (p : F[X]), (ch st).1 ∉ bad →
        gateProve ch L n t gates mgd (rowMask L n usable) st = some (p, st') →
        (p.eval (L.root n ^ j) = 0 ↔
          usable ≤ j ∨ ∀ g ∈ gates, t.selectorAt g.selectorIndex j ≠ 0 →
            ∀ c ∈ g.constraints, evaluateAtRow c j t = some 0) := by
  obtain ⟨bad, hcard, hbad⟩ := exists_bad (gateValues gates (t.cyclicCell (2 ^ n) j))
  refine ⟨bad, by rw [← length_gateValues gates]; exact hcard, ?_⟩
  intro S ch st st' p hth hp
  rw [gateProve_row h ch p st st' hp j hj, ← mem_gateValues h j hj]
  by_cases hu : j < usable
  · rw [if_pos hu]
    exact ⟨fun he => Or.inr (hbad _ hth he),
      fun he => evalPoly_all_zero _ (he.resolve_left (by omega)) _⟩
  · rw [if_neg hu]
    exact ⟨fun _ => Or.inl (by omega), fun _ => rfl⟩

/-- C34, completeness: if the gates hold on the table, then for every challenge the prover's polynomial
is zero at every row. -/
theorem C34_complete (h : GateSetup L A n usable t gates mgd) (hg : GatesHold t gates usable)
    (ch : S → F × S) (st : S) :
    ∃ p, gateProve ch L n t gates mgd (rowMask L n usable) st = some (p, (ch st).2) ∧
      ∀ j < 2 ^ n, p.eval (L.root n ^ j) = 0 := by
  obtain ⟨p, hp⟩ := C34_prover_succeeds h ch (rowMask L n usable) st
  refine ⟨p, hp, ?_⟩
  intro j hj
  rw [gateProve_row h ch p st _ hp j hj]
  split_ifs with hu
  · exact evalPoly_all_zero _ ((mem_gateValues h j hj).2 (hg j hu)) _
  · rfl

/-- C34, soundness for the verifier: there are at most `usable * constraints` bad challenges, fixed by the
table and the gates. For any other challenge, if the value computed by the verifier from the true
evaluations is zero at every row, then the gates hold on the table. -/
theorem C34_sound (h : GateSetup L A n usable t gates mgd) :
    ∃ bad : Finset F, bad.card ≤ usable * constraintCount gates ∧
      ∀ (S : Type) (ch : S → F × S) (st : S), (ch st).1 ∉ bad →
        (∀ j < 2 ^ n, ∀ evaluations, TrueEvaluations L n t gates (L.root n ^ j) evaluations →
          ∃ st', gateVerify ch gates evaluations ((rowMask L n usable).eval (L.root n ^ j)) st =
            some (0, st')) →
        GatesHold t gates usable := by
  choose! bad hcard hbad using fun j hj => C34_row h j hj
  refine ⟨(Finset.range usable).biUnion bad, ?_, ?_⟩
  · refine Finset.card_biUnion_le.trans ((Finset.sum_le_card_nsmul _ _ (constraintCount gates) ?_).trans ?_)
    · intro j hj
      exact hcard j ((Finset.mem_range.1 hj).trans h.usable)
    · simp
  · intro S ch st hth hv j hj
    have hj' := hj.trans h.usable
    have hth' : (ch st).1 ∉ bad j := fun hb =>
      hth (Finset.mem_biUnion.2 ⟨j, Finset.mem_range.2 hj, hb⟩)
    obtain ⟨p, hp⟩ := C34_prover_succeeds h ch (rowMask L n usable) st
    have hT : TrueEvaluations L n t gates (L.root n ^ j) fun i r ty =>
        some ((columnPoly L t i ty).eval (L.root n ^ r * L.root n ^ j)) := by
      intro g hg
      refine ⟨by simp, fun c hc v hv => rfl⟩
    obtain ⟨st', hst⟩ := hv j hj' _ hT
    rw [C33_gates h ch _ p st _ hp _ _ hT] at hst
    simp only [Option.some.injEq, Prod.mk.injEq] at hst
    exact ((hbad j hj' S ch st _ p hth' hp).1 hst.1).resolve_left (by omega)

/-! ## examples -/

/-- A table with four rows: `w1` is the square of `w0`, and the next `w0` is `w1` plus the constant. The
selector is off in the second row and two in the first. -/
def exGateTable : PlonkTable (ZMod 17) :=
  ⟨[[2, 5, 9, 1], [4, 8, 3, 1]], [], [[1, 1, 1, 1]], [[2, 0, 0, 0]]⟩

/-- The two constraints, one of them with a rotation. -/
def exGates : List (Gate (ZMod 17)) :=
  [⟨0, [.bin .sub (.pow (.term ⟨[⟨0, 0, true, .witness⟩], 1⟩) 2) (.term ⟨[⟨1, 0, true, .witness⟩], 1⟩),
    .bin .sub (.term ⟨[⟨0, 1, true, .witness⟩], 1⟩)
      (.bin .add (.term ⟨[⟨1, 0, true, .witness⟩], 1⟩) (.term ⟨[⟨0, 0, true, .constant⟩], 1⟩))]⟩]

theorem exGateSetup : GateSetup (FftLib.ofRoots exRoots17) 4 2 3 exGateTable exGates 2 where
  lib := exLib17_lawful
  small := by norm_num
  fits := by norm_num
  rect := by unfold PlonkTable.Rectangular; decide
  rows := by decide
  usable := by norm_num
  inTable := by
    intro g hg
    simp only [exGates, List.mem_singleton] at hg
    subst hg
    refine ⟨by decide, ?_⟩
    intro c hc v hv
    simp only [List.mem_cons, List.not_mem_nil, or_false] at hc
    rcases hc with rfl | rfl
    · simp only [Expr.visitVars, List.mem_append, List.mem_singleton] at hv
      rcases hv with rfl | rfl <;> exact ⟨_, rfl, by decide⟩
    · simp only [Expr.visitVars, List.mem_append, List.mem_singleton] at hv
      rcases hv with rfl | rfl | rfl <;> exact ⟨_, rfl, by decide⟩
  degree := by norm_num

/-- The hypothesis of `C34_complete` is met, and a changed witness violates it. -/
example : GatesHold exGateTable exGates 3 ∧
    ¬ GatesHold ⟨[[2, 6, 9, 1], [4, 8, 3, 1]], [], [[1, 1, 1, 1]], [[2, 0, 0, 0]]⟩ exGates 3 := by
  constructor
  · intro j hj g hg hs c hc
    simp only [exGates, List.mem_singleton] at hg
    subst hg
    simp only [List.mem_cons, List.not_mem_nil, or_false] at hc
    interval_cases j
    · rcases hc with rfl | rfl <;> decide +kernel
    · exact absurd rfl hs
    · exact absurd rfl hs
  · intro h
    have := h 0 (by norm_num) _ (List.mem_singleton.2 rfl) (by decide) _
      (List.mem_cons_of_mem _ (List.mem_singleton.2 rfl))
    revert this
    decide +kernel

end Crypto3Zk
