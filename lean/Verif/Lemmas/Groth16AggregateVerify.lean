import Verif.Lemmas.Groth16Aggregate
import Mathlib.Data.List.GetD
import Mathlib.Algebra.BigOperators.Intervals
import Mathlib.Algebra.Ring.GeomSum

/-!
# Lemmas: the verifier of aggregated Groth16 proofs
-/

set_option linter.unusedSectionVars false

namespace Crypto3Zk

variable {F : Type} [Field F] {G1 G2 GT : Type} [AddCommGroup G1] [Module F G1] [AddCommGroup G2]
  [Module F G2] [AddCommGroup GT] [Module F GT]

/-! ## The pairing check -/

theorem foldl_plus_list (l : List GT) (x : GT) : l.foldl (· + ·) x = x + l.sum := by
  induction l generalizing x with
  | nil => simp
  | cons y l ih => rw [List.foldl_cons, ih, List.sum_cons, add_assoc]

theorem zipWith_smul_sum (P : Pairing F G1 G2 GT) (c : F) (a : List G1) (b : List G2) :
    (List.zipWith (fun x y => P.e (c • x) y) a b).sum = c • bsum P.e a b := by
  unfold bsum
  induction a generalizing b with
  | nil => simp
  | cons x a ih =>
    cases b with
    | nil => simp
    | cons y b =>
      rw [List.zipWith_cons_cons, List.sum_cons, ih, List.zipWith_cons_cons, List.sum_cons, smul_add,
        map_smul, LinearMap.smul_apply]

/-- the state of a valid pairing check, by the difference of its sides -/
def PairingCheck.Is (pc : PairingCheck GT) (d : GT) : Prop :=
  pc.valid = true ∧ pc.nonRandomDone = false ∧ pc.left - pc.right = d

theorem empty_is : (PairingCheck.empty : PairingCheck GT).Is 0 := ⟨rfl, rfl, sub_self _⟩

theorem mergeRandom_is [DecidableEq GT] (P : Pairing F G1 G2 GT) {pc : PairingCheck GT} {d : GT}
    (h : pc.Is d) (c : F) (a : List G1) (b : List G2) (out : GT) (h0 : 0 < a.length)
    (hl : a.length = b.length) :
    ∃ pc', pc.mergeRandom P c a b out = some pc' ∧ pc'.Is (d + c • (bsum P.e a b - out)) := by
  obtain ⟨h1, h2, h3⟩ := h
  refine ⟨⟨(List.zipWith (fun x y => P.e (c • x) y) a b).foldl (· + ·) pc.left,
    pc.right + (if out = 0 then out else c • out), pc.nonRandomDone, pc.valid⟩,
    by rw [PairingCheck.mergeRandom, if_pos ⟨h0, hl⟩, if_neg (by simp [h1])], h1, h2, ?_⟩
  dsimp only
  rw [foldl_plus_list, zipWith_smul_sum, ← h3]
  have : (if out = 0 then out else c • out) = c • out := by
    split
    · next ho => rw [ho, smul_zero]
    · rfl
  rw [this]
  module

/-! ## The rounds -/

theorem combinedValue_cons {G : Type} [AddCommGroup G] [Module F G] (T : G) (lr : G × G) (LR : List (G × G))
    (x : F) (xs : List F) :
    combinedValue T (lr :: LR) (x :: xs) = combinedValue (T + x • lr.1 + x⁻¹ • lr.2) LR xs := by
  simp only [combinedValue, List.zipWith_cons_cons, List.sum_cons]
  abel

theorem combinedValue_nil {G : Type} [AddCommGroup G] [Module F G] (T : G) (LR : List (G × G)) :
    combinedValue T LR ([] : List F) = T := by simp [combinedValue]

/-- the values combined with the challenges -/
def GipaTuz.combined (t : GipaTuz G1 GT) (ms : List (GipaRound G1 GT)) (xs : List F) : GipaTuz G1 GT :=
  ⟨combinedValue t.tab (ms.map fun m => (m.tabL.1, m.tabR.1)) xs,
    combinedValue t.uab (ms.map fun m => (m.tabL.2, m.tabR.2)) xs,
    combinedValue t.zab (ms.map fun m => (m.zabL, m.zabR)) xs,
    combinedValue t.tc (ms.map fun m => (m.tucL.1, m.tucR.1)) xs,
    combinedValue t.uc (ms.map fun m => (m.tucL.2, m.tucR.2)) xs,
    combinedValue t.zc (ms.map fun m => (m.zcL, m.zcR)) xs⟩

theorem foldl_step (t : GipaTuz G1 GT) (ms : List (GipaRound G1 GT)) (xs : List F) :
    (ms.zip (xs.zip (xs.map (·⁻¹)))).foldl GipaTuz.step t = t.combined ms xs := by
  induction ms generalizing t xs with
  | nil => simp [GipaTuz.combined, combinedValue]
  | cons m ms ih =>
    cases xs with
    | nil => simp [GipaTuz.combined, combinedValue]
    | cons x xs =>
      simp only [List.map_cons, List.zip_cons_cons, List.foldl_cons, ih]
      simp only [GipaTuz.combined, List.map_cons, combinedValue_cons, GipaTuz.step]

theorem merge_combined (t : GipaTuz G1 GT) (ms : List (GipaRound G1 GT)) (xs : List F) :
    t.merge (GipaTuz.combined ⟨0, 0, 0, 0, 0, 0⟩ ms xs) = t.combined ms xs := by
  simp only [GipaTuz.merge, GipaTuz.combined, combinedValue, zero_add]

theorem rounds_map (p : GipaProof G1 G2 GT) (ms : List (GipaRound G1 GT)) (h : p.rounds = some ms) :
    (ms.map fun m => (m.tabL, m.tabR)) = p.commsAB ∧ (ms.map fun m => (m.tucL, m.tucR)) = p.commsC ∧
      (ms.map fun m => (m.zabL, m.zabR)) = p.zAB ∧ (ms.map fun m => (m.zcL, m.zcR)) = p.zC := by
  unfold GipaProof.rounds at h
  split at h
  swap
  · simp at h
  next hl =>
  obtain ⟨h1, h2, h3⟩ := hl
  rw [Option.some.injEq] at h
  subst h
  simp only [List.map_map]
  refine ⟨?_, ?_, ?_, ?_⟩
  · refine List.ext_getElem (by simp; omega) fun i _ _ => ?_
    simp
  · refine List.ext_getElem (by simp; omega) fun i _ _ => ?_
    simp
  · refine List.ext_getElem (by simp; omega) fun i _ _ => ?_
    simp
  · refine List.ext_getElem (by simp; omega) fun i _ _ => ?_
    simp

/-! ## Public inputs -/

theorem mapM_some_eq_map {α β : Type} (l : List α) (f : α → Option β) (g : α → β)
    (h : ∀ x ∈ l, f x = some (g x)) : l.mapM f = some (l.map g) := by
  induction l with
  | nil => rfl
  | cons x l ih =>
    rw [List.mapM_cons, h x List.mem_cons_self, ih fun y hy => h y (List.mem_cons_of_mem _ hy)]
    rfl

theorem scalarPowers_get (n : Nat) (r : F) (j : Nat) (h : j < n) : (scalarPowers n r)[j]? = some (r ^ j) := by
  rw [scalarPowers, powerKey_get r (1 : F) _ j (by omega)]
  simp

theorem scalarPowers_eq (n : Nat) (h : 1 ≤ n) (r : F) : scalarPowers n r = powerKey r (1 : F) n := by
  rw [scalarPowers, Nat.max_eq_right h]

theorem foldlM_sum (f : Nat → Option F) (g : Nat → F) (l : List Nat) (c : F)
    (h : ∀ j ∈ l, f j = some (g j)) :
    l.foldlM (fun c j => do let x ← f j; some (c + x)) c = some (c + (l.map g).sum) := by
  induction l generalizing c with
  | nil => simp
  | cons j l ih =>
    rw [List.foldlM_cons, h j List.mem_cons_self]
    simp only [Option.bind_eq_bind, Option.bind_some]
    have := ih (c + g j) fun i hi => h i (List.mem_cons_of_mem _ hi)
    simp only [Option.bind_eq_bind] at this
    rw [this, List.map_cons, List.sum_cons, add_assoc]

/-- column `i` of the public inputs, combined with the powers of `r` -/
theorem multiREntry_eq (inputs : List (List F)) (L : Nat) (hl : ∀ x ∈ inputs, x.length = L) (r : F)
    (i : Nat) (hi : i < L) (h0 : inputs ≠ []) :
    multiREntry inputs (scalarPowers inputs.length r) i =
      some (∑ j : Fin inputs.length, r ^ (j : Nat) * (inputs[j]).getD i 0) := by
  have hpos := List.length_pos_iff.mpr h0
  have hget : ∀ j (hj : j < inputs.length), inputs[j]? = some inputs[j] ∧
      (inputs[j])[i]? = some ((inputs[j]).getD i 0) := by
    intro j hj
    refine ⟨List.getElem?_eq_getElem hj, ?_⟩
    have := hl _ (List.getElem_mem hj)
    rw [List.getElem?_eq_getElem (by omega), List.getD_eq_getElem _ _ (by omega)]
  unfold multiREntry
  refine bind_to (hget 0 hpos).1 ?_
  refine bind_to (hget 0 hpos).2 ?_
  have hstep : ∀ j ∈ List.range' 1 (inputs.length - 1),
      (do let row ← inputs[j]?
          let x ← row[i]?
          let p ← (scalarPowers inputs.length r)[j]?
          some (x * p) : Option F) =
        some ((if h : j < inputs.length then (inputs[j]).getD i 0 else 0) * r ^ j) := by
    intro j hj
    have hj' : j < inputs.length := by
      rw [List.mem_range'_1] at hj; omega
    rw [(hget j hj').1, scalarPowers_get _ _ _ hj', dif_pos hj']
    simp only [Option.bind_eq_bind, Option.bind_some, (hget j hj').2]
  have := foldlM_sum _ _ _ ((inputs[0]).getD i 0) hstep
  simp only [Option.bind_eq_bind, Option.bind_assoc, Option.bind_some] at this ⊢
  rw [this]
  congr 1
  obtain ⟨m, hm⟩ : ∃ m, inputs.length = m + 1 := ⟨inputs.length - 1, by omega⟩
  have hsum : ∑ j : Fin inputs.length, r ^ (j : Nat) * (inputs[j]).getD i 0 =
      ∑ j ∈ Finset.range inputs.length,
        (if h : j < inputs.length then (inputs[j]).getD i 0 else 0) * r ^ j := by
    rw [Finset.sum_range]
    refine Finset.sum_congr rfl fun j _ => ?_
    rw [dif_pos j.2, mul_comm]
    rfl
  rw [hsum, Finset.sum_range, ← Finset.sum_range fun j => (if h : j < inputs.length then
    (inputs[j]).getD i 0 else 0) * r ^ j, Finset.range_eq_Ico, Finset.sum_eq_sum_Ico_succ_bot hpos]
  rw [dif_pos hpos, pow_zero, mul_one]
  congr 1

/-- the part of the key that a public input selects -/
theorem zipWith_smul_sum_comb {G : Type} [AddCommGroup G] [Module F G] (n : Nat) (x : Fin n → List F)
    (c : Fin n → F) (g : List G) (hx : ∀ j, (x j).length = g.length) :
    (List.zipWith (fun g a => a • g) g ((List.range g.length).map fun i =>
        ∑ j, c j * (x j).getD i 0)).sum =
      ∑ j, c j • (List.zipWith (fun g a => a • g) g (x j)).sum := by
  have hone : ∀ (g : List G) (y : List F), y.length = g.length →
      (List.zipWith (fun g a => a • g) g y).sum =
        ∑ i ∈ Finset.range g.length, y.getD i 0 • g.getD i 0 := by
    intro g
    induction g with
    | nil => intro y _; simp
    | cons h g ih =>
      intro y hy
      cases y with
      | nil => simp at hy
      | cons a y =>
        rw [List.zipWith_cons_cons, List.sum_cons, ih y (by simpa using hy), List.length_cons,
          Finset.sum_range_succ']
        simp [add_comm]
  rw [hone g _ (by simp)]
  have hr : ∀ j, c j • (List.zipWith (fun g a => a • g) g (x j)).sum =
      ∑ i ∈ Finset.range g.length, c j • (x j).getD i 0 • g.getD i 0 := fun j => by
    rw [hone g _ (hx j), Finset.smul_sum]
  simp only [hr]
  rw [Finset.sum_comm]
  refine Finset.sum_congr rfl fun i hi => ?_
  rw [List.getD_eq_getElem _ _ (by simpa using hi), List.getElem_map, List.getElem_range, Finset.sum_smul]
  exact Finset.sum_congr rfl fun j _ => by rw [mul_smul]

/-! ## The verdict -/

/-- the difference of the two sides of each randomised check, in the order of the merges -/
def aggDefect (P : Pairing F G1 G2 GT) (s : AggVerificationSrs G1 G2) (p : AggProof G1 G2 GT) (r : F)
    (xs : List F) (z : F) : List GT :=
  let fv := foldFactor (xs.map (·⁻¹)) z
  let fw := foldFactor xs (z * r⁻¹) * z ^ s.n
  [P.e (s.gAlpha - z • s.g) p.vkeyOpening.1 - P.e s.g (p.gipa.finalVkey.1 - fv • s.h),
    P.e (s.gBeta - z • s.g) p.vkeyOpening.2 - P.e s.g (p.gipa.finalVkey.2 - fv • s.h),
    P.e p.wkeyOpening.1 (s.hAlpha - z • s.h) - P.e (p.gipa.finalWkey.1 - fw • s.g) s.h,
    P.e p.wkeyOpening.2 (s.hBeta - z • s.h) - P.e (p.gipa.finalWkey.2 - fw • s.g) s.h,
    P.e p.gipa.finalA p.gipa.finalB - combinedValue p.ipAB p.gipa.zAB xs,
    P.e p.gipa.finalA p.gipa.finalVkey.1 + P.e p.gipa.finalWkey.1 p.gipa.finalB -
      combinedValue p.comAB.1 (p.gipa.commsAB.map fun c => (c.1.1, c.2.1)) xs,
    P.e p.gipa.finalA p.gipa.finalVkey.2 + P.e p.gipa.finalWkey.2 p.gipa.finalB -
      combinedValue p.comAB.2 (p.gipa.commsAB.map fun c => (c.1.2, c.2.2)) xs,
    P.e p.gipa.finalC p.gipa.finalVkey.1 -
      combinedValue p.comC.1 (p.gipa.commsC.map fun c => (c.1.1, c.2.1)) xs,
    P.e p.gipa.finalC p.gipa.finalVkey.2 -
      combinedValue p.comC.2 (p.gipa.commsC.map fun c => (c.1.2, c.2.2)) xs]

/-- the difference of the two sides of the combined Groth16 equation -/
def grothDefect (P : Pairing F G1 G2 GT) (vk : AggVK G1 G2) (inputs : List (List F))
    (p : AggProof G1 G2 GT) (r : F) : GT :=
  P.e ((∑ i : Fin inputs.length, r ^ (i : Nat)) • vk.alphaG1) vk.betaG2 +
    P.e (∑ i : Fin inputs.length, r ^ (i : Nat) • (vk.gammaABC.first +
      (List.zipWith (fun g a => a • g) vk.gammaABC.rest inputs[i]).sum)) vk.gammaG2 +
    P.e p.aggC vk.deltaG2 - p.ipAB

theorem aggEquations_iff (P : Pairing F G1 G2 GT) (s : AggVerificationSrs G1 G2) (vk : AggVK G1 G2)
    (inputs : List (List F)) (p : AggProof G1 G2 GT) (r : F) (xs : List F) (z : F) :
    AggEquations P s vk inputs p r xs z ↔ (∀ d ∈ aggDefect P s p r xs z, d = 0) ∧
      foldFactor (xs.map (·⁻¹)) r • p.gipa.finalC = combinedValue p.aggC p.gipa.zC xs ∧
      grothDefect P vk inputs p r = 0 := by
  simp only [aggDefect, grothDefect, List.forall_mem_cons, sub_eq_zero]
  constructor
  · rintro ⟨h1, h2, h3, h4, h5, h6, h7, h8, h9, h10, h11⟩
    exact ⟨⟨h1.symm, h2.symm, h3.symm, h4.symm, h5, h6, h7, h8, h9, by simp⟩, h10, h11.symm⟩
  · rintro ⟨⟨h1, h2, h3, h4, h5, h6, h7, h8, h9, _⟩, h10, h11⟩
    exact ⟨h1.symm, h2.symm, h3.symm, h4.symm, h5, h6, h7, h8, h9, h10, h11.symm⟩

/-- `Σ ρ_i d_i` -/
def weighted (rho : Nat → F) (ds : List GT) : GT := (ds.mapIdx fun i d => rho i • d).sum

theorem verifyTippMipp_is [DecidableEq F] [DecidableEq G1] [DecidableEq GT] (P : Pairing F G1 G2 GT)
    (H : AggHash F G1 G2 GT) (s : AggVerificationSrs G1 G2) (p : AggProof G1 G2 GT) (incl : List UInt8)
    (r : F) (xs : List F) (z : F) (hc : AggChallenges H p incl r xs z) (rho : Nat → F) :
    ∃ pc, verifyTippMipp P H (H.writeStart p.comAB p.comC incl ++ H.bytesGT p.ipAB ++ H.bytesG1 p.aggC) s
        p r rho PairingCheck.empty =
      some (if foldFactor (xs.map (·⁻¹)) r • p.gipa.finalC ≠ combinedValue p.aggC p.gipa.zC xs then
        { pc with valid := false } else pc) ∧ pc.Is (weighted rho (aggDefect P s p r xs z)) := by
  obtain ⟨ms, tr, c, hms, hch, hlast, hz⟩ := hc.rounds
  have hne : xs ≠ [] := by rintro rfl; simp at hlast
  have hne' : xs.map (·⁻¹) ≠ [] := by simpa using hne
  obtain ⟨m1, m2, m3, m4⟩ := rounds_map _ _ hms
  have hinv : ((xs.map (·⁻¹)).map fun x => x⁻¹) = xs := by
    rw [List.map_map]
    conv_rhs => rw [← List.map_id xs]
    exact List.map_congr_left fun x _ => inv_inv x
  have hg : gipaVerify H (H.writeStart p.comAB p.comC incl ++ H.bytesGT p.ipAB ++ H.bytesG1 p.aggC) p r =
      some (GipaTuz.combined ⟨p.comAB.1, p.comAB.2, p.ipAB, p.comC.1, p.comC.2, p.aggC⟩ ms xs,
        foldFactor (xs.map (·⁻¹)) r, xs.reverse, (xs.map (·⁻¹)).reverse, tr) := by
    unfold gipaVerify
    refine bind_to hms ?_
    refine bind_to hch ?_
    dsimp only
    rw [hinv]
    refine bind_to (productForm_reverse _ hne' r 1) ?_
    rw [foldl_step, merge_combined, mul_one]
  have hc0 : xs.reverse[0]? = some c := by
    rw [← List.head?_eq_getElem?, List.head?_reverse]; exact hlast
  obtain ⟨pc1, e1, i1⟩ := mergeRandom_is P (empty_is (GT := GT)) (rho 0) [-s.g, s.gAlpha - z • s.g]
    [p.gipa.finalVkey.1 - foldFactor (xs.map (·⁻¹)) (z * 1) • s.h, p.vkeyOpening.1] 0 (by simp) rfl
  obtain ⟨pc2, e2, i2⟩ := mergeRandom_is P i1 (rho 1) [-s.g, s.gBeta - z • s.g]
    [p.gipa.finalVkey.2 - foldFactor (xs.map (·⁻¹)) (z * 1) • s.h, p.vkeyOpening.2] 0 (by simp) rfl
  obtain ⟨pc3, e3, i3⟩ := mergeRandom_is P i2 (rho 2)
    [p.gipa.finalWkey.1 - (foldFactor xs (z * r⁻¹) * z ^ s.n) • s.g, p.wkeyOpening.1]
    [-s.h, s.hAlpha - z • s.h] 0 (by simp) rfl
  obtain ⟨pc4, e4, i4⟩ := mergeRandom_is P i3 (rho 3)
    [p.gipa.finalWkey.2 - (foldFactor xs (z * r⁻¹) * z ^ s.n) • s.g, p.wkeyOpening.2]
    [-s.h, s.hBeta - z • s.h] 0 (by simp) rfl
  generalize hres : GipaTuz.combined ⟨p.comAB.1, p.comAB.2, p.ipAB, p.comC.1, p.comC.2, p.aggC⟩ ms xs = res
    at hg
  obtain ⟨pc5, e5, i5⟩ := mergeRandom_is P i4 (rho 4) [p.gipa.finalA] [p.gipa.finalB] res.zab (by simp) rfl
  obtain ⟨pc6, e6, i6⟩ := mergeRandom_is P i5 (rho 5) [p.gipa.finalA, p.gipa.finalWkey.1]
    [p.gipa.finalVkey.1, p.gipa.finalB] res.tab (by simp) rfl
  obtain ⟨pc7, e7, i7⟩ := mergeRandom_is P i6 (rho 6) [p.gipa.finalA, p.gipa.finalWkey.2]
    [p.gipa.finalVkey.2, p.gipa.finalB] res.uab (by simp) rfl
  obtain ⟨pc8, e8, i8⟩ := mergeRandom_is P i7 (rho 7) [p.gipa.finalC] [p.gipa.finalVkey.1] res.tc
    (by simp) rfl
  obtain ⟨pc9, e9, i9⟩ := mergeRandom_is P i8 (rho 8) [p.gipa.finalC] [p.gipa.finalVkey.2] res.uc
    (by simp) rfl
  have r1 : res.tab = combinedValue p.comAB.1 (p.gipa.commsAB.map fun c => (c.1.1, c.2.1)) xs := by
    rw [← hres, ← m1, List.map_map]; rfl
  have r2 : res.uab = combinedValue p.comAB.2 (p.gipa.commsAB.map fun c => (c.1.2, c.2.2)) xs := by
    rw [← hres, ← m1, List.map_map]; rfl
  have r3 : res.zab = combinedValue p.ipAB p.gipa.zAB xs := by
    rw [← hres, ← m3]; rfl
  have r4 : res.tc = combinedValue p.comC.1 (p.gipa.commsC.map fun c => (c.1.1, c.2.1)) xs := by
    rw [← hres, ← m2, List.map_map]; rfl
  have r5 : res.uc = combinedValue p.comC.2 (p.gipa.commsC.map fun c => (c.1.2, c.2.2)) xs := by
    rw [← hres, ← m2, List.map_map]; rfl
  have r6 : res.zc = combinedValue p.aggC p.gipa.zC xs := by
    rw [← hres, ← m4]; rfl
  refine ⟨pc9, ?_, ?_⟩
  · unfold verifyTippMipp
    refine bind_to hg ?_
    dsimp only
    refine bind_to hc0 ?_
    refine bind_to hz ?_
    refine bind_to (a := pc2) ?_ ?_
    · unfold verifyKzgV
      refine bind_to (productForm_reverse _ hne' z 1) ?_
      refine bind_to e1 ?_
      exact e2
    refine bind_to (a := pc4) ?_ ?_
    · unfold verifyKzgW
      refine bind_to (productForm_reverse _ hne z r⁻¹) ?_
      refine bind_to e3 ?_
      exact e4
    refine bind_to e5 ?_
    refine bind_to e6 ?_
    refine bind_to e7 ?_
    refine bind_to e8 ?_
    refine bind_to e9 ?_
    rw [r6]
  · refine ⟨i9.1, i9.2.1, ?_⟩
    rw [i9.2.2, r1, r2, r3, r4, r5]
    simp only [weighted, aggDefect, List.mapIdx_cons, List.mapIdx_nil, List.sum_cons, List.sum_nil, bsum,
      List.zipWith_cons_cons, List.zipWith_nil_left, mul_one, zero_add, add_zero, sub_zero, map_neg,
      LinearMap.neg_apply, Nat.reduceAdd]
    module

theorem groth_middle (vk : AggVK G1 G2) (inputs : List (List F))
    (hl : ∀ x ∈ inputs, x.length = vk.gammaABC.domainSize) (r : F) :
    (∑ i : Fin inputs.length, r ^ (i : Nat) • (vk.gammaABC.first +
        (List.zipWith (fun g a => a • g) vk.gammaABC.rest inputs[i]).sum)) =
      (∑ i : Fin inputs.length, r ^ (i : Nat)) • vk.gammaABC.first +
        (List.zipWith (fun g a => a • g) vk.gammaABC.rest ((List.range vk.gammaABC.rest.length).map fun i =>
          ∑ j : Fin inputs.length, r ^ (j : Nat) * (inputs[j]).getD i 0)).sum := by
  rw [zipWith_smul_sum_comb inputs.length (fun j => inputs[j]) (fun j => r ^ (j : Nat)) vk.gammaABC.rest
    fun j => hl _ (List.getElem_mem j.2)]
  simp only [smul_add, Finset.sum_add_distrib, Finset.sum_smul]

/-- What the verifier computes, for all public inputs of the right length. -/
theorem verifyAggregate_verdict [DecidableEq F] [DecidableEq G1] [DecidableEq GT] (P : Pairing F G1 G2 GT)
    (H : AggHash F G1 G2 GT) (s : AggVerificationSrs G1 G2) (vk : AggVK G1 G2) (inputs : List (List F))
    (p : AggProof G1 G2 GT) (incl : List UInt8) (rho : Nat → F) (h0 : inputs ≠ [])
    (hl : ∀ x ∈ inputs, x.length = vk.gammaABC.domainSize) (r : F) (xs : List F) (z : F)
    (hc : AggChallenges H p incl r xs z) :
    verifyAggregate P H s vk inputs p incl rho =
      some (decide (foldFactor (xs.map (·⁻¹)) r • p.gipa.finalC = combinedValue p.aggC p.gipa.zC xs ∧
        weighted rho (aggDefect P s p r xs z) + grothDefect P vk inputs p r = 0)) := by
  obtain ⟨pc, hpc, hv, hn, hd⟩ := verifyTippMipp_is P H s p incl r xs z hc rho
  have hpos := List.length_pos_iff.mpr h0
  have hr1 : r - 1 ≠ 0 := sub_ne_zero.mpr (read_ne H _ _ hc.start).2
  have hrs : (r ^ inputs.length - 1) * (r - 1)⁻¹ = ∑ i : Fin inputs.length, r ^ (i : Nat) := by
    rw [← Finset.sum_range fun i => r ^ i, ← mul_geom_sum, mul_assoc, mul_comm (∑ i ∈ _, _), ← mul_assoc,
      mul_inv_cancel₀ hr1, one_mul]
  unfold verifyAggregate
  rw [if_pos (by simpa using hl)]
  refine bind_to hc.start ?_
  dsimp only
  refine bind_to hpc ?_
  refine bind_to (List.getElem?_eq_getElem hpos) ?_
  have hlen : (inputs[0]).length = vk.gammaABC.rest.length := hl _ (List.getElem_mem hpos)
  refine bind_to (mapM_some_eq_map _ _ (fun i => ∑ j : Fin inputs.length, r ^ (j : Nat) * (inputs[j]).getD i 0)
    fun i hi => ?_) ?_
  · exact multiREntry_eq inputs _ hl r i (by rw [List.mem_range] at hi; exact lt_of_lt_of_eq hi hlen) h0
  rw [hlen, AccVec.accumulate, if_pos (by simp [AccVec.domainSize])]
  simp only [Option.bind_eq_bind, Option.bind_some, add_sub_cancel_left]
  rw [hrs, ← groth_middle vk inputs hl r]
  by_cases hz : foldFactor (xs.map (·⁻¹)) r • p.gipa.finalC = combinedValue p.aggC p.gipa.zC xs
  · rw [if_neg (not_not.mpr hz)]
    rw [PairingCheck.mergeNonrandom, if_pos ⟨hn, by simp⟩, if_neg (by simp [hv])]
    rw [Option.bind_some, Option.some.injEq, PairingCheck.verify]
    dsimp only
    rw [hv, Bool.true_and, foldl_plus_list]
    simp only [hz, true_and, List.sum_cons, List.sum_nil, ← hd, grothDefect]
    refine decide_eq_decide.mpr ?_
    rw [← sub_eq_zero]
    refine Eq.congr ?_ rfl
    abel
  · rw [if_pos hz]
    rw [PairingCheck.mergeNonrandom, if_pos ⟨hn, by simp⟩, if_pos rfl, Option.bind_some,
      Option.some.injEq, PairingCheck.verify]
    simp [hz]

/-- The verifier gives a verdict only when the transcript gives the challenges. -/
theorem challenges_of_verdict [DecidableEq F] [DecidableEq G1] [DecidableEq GT] (P : Pairing F G1 G2 GT)
    (H : AggHash F G1 G2 GT) (s : AggVerificationSrs G1 G2) (vk : AggVK G1 G2) (inputs : List (List F))
    (p : AggProof G1 G2 GT) (incl : List UInt8) (rho : Nat → F) (b : Bool)
    (h : verifyAggregate P H s vk inputs p incl rho = some b) :
    inputs ≠ [] ∧ (∀ x ∈ inputs, x.length = vk.gammaABC.domainSize) ∧
      ∃ r xs z, AggChallenges H p incl r xs z := by
  unfold verifyAggregate at h
  split at h
  swap
  · simp at h
  next hl =>
  simp only [Option.bind_eq_bind, Option.bind_eq_some_iff] at h
  obtain ⟨r, hr, pc, hpc, first, hfirst, -⟩ := h
  refine ⟨by rintro rfl; simp at hfirst, by simpa using hl, r, ?_⟩
  unfold verifyTippMipp gipaVerify at hpc
  simp only [Option.bind_eq_bind, Option.bind_eq_some_iff] at hpc
  obtain ⟨⟨res, fr, cs, ci, tr⟩, ⟨ms, hms, ⟨inv, tr'⟩, hch, fr', hfr, heq⟩, c, hc, z, hz, -⟩ := hpc
  simp only [Option.some.injEq, Prod.mk.injEq] at heq
  obtain ⟨-, -, hcs, -, rfl⟩ := heq
  refine ⟨inv.map (·⁻¹), z, hr, ms, tr', c, hms, ?_, ?_, hz⟩
  · rw [hch, List.map_map]
    congr 2
    conv_lhs => rw [← List.map_id inv]
    exact List.map_congr_left fun x _ => (inv_inv x).symm
  · rw [← hcs, ← List.head?_eq_getElem?, List.head?_reverse] at hc
    exact hc

end Crypto3Zk
