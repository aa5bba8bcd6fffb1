import Verif.Spec.PowersOfTau
import Verif.Lemmas.Groth16
import Mathlib.Data.Fintype.BigOperators
import Mathlib.Data.Fintype.Pi
import Mathlib.Data.Fintype.Prod
import Mathlib.Tactic.Ring
import Mathlib.Tactic.Module
import Mathlib.Tactic.FieldSimp
import Mathlib.Tactic.LinearCombination

/-!
# Lemmas about the powers-of-tau ceremony
-/

set_option linter.unusedSectionVars false

namespace Crypto3Zk

variable {F G1 G2 GT : Type} [Field F] [AddCommGroup G1] [Module F G1] [AddCommGroup G2] [Module F G2]
  [AddCommGroup GT] [Module F GT]

theorem powersFrom_eq_map (t ti : F) (n : Nat) :
    powersFrom t ti n = (List.range n).map fun i => ti * t ^ i := by
  induction n generalizing ti with
  | zero => rfl
  | succ n ih =>
    rw [powersFrom, ih, List.range_succ_eq_map, List.map_cons, List.map_map]
    congr 1
    · simp
    · apply List.map_congr_left
      intro i _
      simp only [Function.comp_apply, pow_succ]
      ring

theorem powersFrom_one (t : F) (n : Nat) : powersFrom t 1 n = (List.range n).map fun i => t ^ i := by
  rw [powersFrom_eq_map]; simp

theorem zipWith_range_map {α β γ : Type} (f : α → β → γ) (a : Nat → α) (b : Nat → β) (n k : Nat) (h : n ≤ k) :
    List.zipWith f ((List.range n).map a) ((List.range k).map b) = (List.range n).map fun i => f (a i) (b i) := by
  apply List.ext_getElem
  · simp; omega
  · intro i h1 h2
    simp

theorem naiveBatchExp_powers {G : Type} [AddCommGroup G] [Module F G] (a : Nat → G) (t : F) (n k : Nat)
    (h : n ≤ k) :
    naiveBatchExp ((List.range n).map a) (powersFrom t 1 k) =
      some ((List.range n).map fun i => t ^ i • a i) := by
  rw [naiveBatchExp, powersFrom_one, if_pos (by simpa using h), zipWith_range_map _ _ _ _ _ h]

theorem naiveBatchExpWithCoeff_powers {G : Type} [AddCommGroup G] [Module F G] (a : Nat → G) (t c : F)
    (n k : Nat) (h : n ≤ k) :
    naiveBatchExpWithCoeff ((List.range n).map a) (powersFrom t 1 k) c =
      some ((List.range n).map fun i => (c * t ^ i) • a i) := by
  rw [naiveBatchExpWithCoeff, powersFrom_one, if_pos (by simpa using h), zipWith_range_map _ _ _ _ _ h]

theorem transform_tauStructure (P : Pairing F G1 G2 GT) (len : Nat) (hlen : 1 ≤ len) (k key : TauKey F) :
    (tauStructure P len k).transform len key =
      some (tauStructure P len ⟨k.tau * key.tau, k.alpha * key.alpha, k.beta * key.beta⟩) := by
  have h1 : len ≤ 2 * len - 1 := by omega
  simp only [TauAccumulator.transform, tauStructure, naiveBatchExp_powers _ _ _ _ le_rfl,
    naiveBatchExp_powers _ _ _ _ h1, naiveBatchExpWithCoeff_powers _ _ _ _ _ h1, Option.bind_eq_bind,
    Option.bind_some, Option.pure_def, Option.some.injEq, TauAccumulator.mk.injEq]
  refine ⟨?_, ?_, ?_, ?_, ?_⟩
  all_goals first
    | (apply List.map_congr_left; intro i _; rw [smul_smul]; congr 1; ring)
    | (rw [smul_smul]; congr 1; ring)

theorem new_eq (P : Pairing F G1 G2 GT) (len : Nat) :
    TauAccumulator.new P len = tauStructure P len ⟨1, 1, 1⟩ := by
  simp [TauAccumulator.new, tauStructure, List.map_const']

theorem tauStructure_wellFormed (P : Pairing F G1 G2 GT) (len : Nat) (k : TauKey F) :
    TauWellFormed P (tauStructure P len k) k := by
  constructor
  all_goals try rfl
  all_goals
    intro i g h
    simp only [tauStructure, List.getElem?_map, Option.map_eq_some_iff] at h
    obtain ⟨j, hj, rfl⟩ := h
    rw [List.getElem?_eq_some_iff] at hj
    obtain ⟨_, hj⟩ := hj
    simp only [List.getElem_range] at hj
    rw [hj]

/-! ## verification -/

theorem firstFailure_true (l : List (Option Bool)) : firstFailure l = some true ↔ ∀ c ∈ l, c = some true := by
  induction l with
  | nil => simp [firstFailure]
  | cons c cs ih => rcases c with - | - | - <;> simp [firstFailure, ih]

theorem Pairing.Cyclic.smul_inj {P : Pairing F G1 G2 GT} (hP : P.Cyclic) {a b : F}
    (h : a • P.e P.one1 P.one2 = b • P.e P.one1 P.one2) : a = b := by
  have : (a - b) • P.e P.one1 P.one2 = 0 := by rw [sub_smul, h, sub_self]
  rcases smul_eq_zero.1 this with h | h
  · exact sub_eq_zero.1 h
  · exact absurd h hP.e_ne

theorem isSameRatio_iff [DecidableEq F] [DecidableEq GT] {P : Pairing F G1 G2 GT} (hP : P.Cyclic) (a b c d : F) :
    isSameRatio P (a • P.one1, b • P.one1) (c • P.one2, d • P.one2) = true ↔ a * d = b * c := by
  rw [isSameRatio, decide_eq_true_iff, pair_smul, pair_smul]
  exact ⟨hP.smul_inj, fun h => by rw [h]⟩

theorem mergePairs_map {G : Type} [AddCommGroup G] [Module F G] (g : G) (v w r : List F)
    (h1 : v.length = r.length) (h2 : w.length = r.length) :
    mergePairs (v.map fun x => x • g) (w.map fun x => x • g) r =
      some (innerProduct r v • g, innerProduct r w • g) := by
  have e1 := multiexp_batchExp g v r h1
  have e2 := multiexp_batchExp g w r h2
  rw [batchExp] at e1 e2
  rw [mergePairs, e1, e2]; rfl

theorem powerPairs_map {G : Type} [AddCommGroup G] [Module F G] (g : G) (v r : List F) (hv : v ≠ [])
    (h : v.length = r.length + 1) :
    powerPairs (v.map fun x => x • g) r = some (innerProduct r v.dropLast • g, innerProduct r v.tail • g) := by
  rw [powerPairs, if_neg (by simpa using hv), ← List.map_dropLast, ← List.map_tail]
  exact mergePairs_map g _ _ r (by simp; omega) (by simp; omega)

/-- every list of a cyclic group is the image of a list of scalars -/
theorem exists_exponents {G : Type} [AddCommGroup G] [Module F G] (g : G) (hg : ∀ x : G, ∃ c : F, x = c • g)
    (l : List G) : ∃ v : List F, l = v.map fun x => x • g := by
  induction l with
  | nil => exact ⟨[], rfl⟩
  | cons a l ih =>
    obtain ⟨v, rfl⟩ := ih
    obtain ⟨c, rfl⟩ := hg a
    exact ⟨c :: v, rfl⟩

/-- A linear condition that is not trivial holds for at most one in `|F|` of the choices. -/
theorem count_le [Fintype F] [DecidableEq F] {Ω : Type} [Fintype Ω] (A : Finset Ω)
    (shift : Ω → F → Ω) (φ : Ω → F) (c : F) (hc : c ≠ 0)
    (hφ : ∀ ω ∈ A, ∀ x, φ (shift ω x) = x * c) (hback : ∀ ω x, shift (shift ω x) (-x) = ω) :
    A.card * Fintype.card F ≤ Fintype.card Ω := by
  have : (A ×ˢ (Finset.univ : Finset F)).card ≤ (Finset.univ : Finset Ω).card := by
    apply Finset.card_le_card_of_injOn (fun p => shift p.1 p.2)
    · intro p _; simp
    · rintro ⟨ω, x⟩ h ⟨ω', x'⟩ h' heq
      simp only [Finset.coe_product, Set.mem_prod, Finset.mem_coe] at h h'
      simp only at heq
      have e1 := hφ ω h.1 x
      rw [heq, hφ ω' h'.1 x'] at e1
      obtain rfl : x' = x := mul_right_cancel₀ hc e1
      have := hback ω x'
      rw [heq, hback] at this
      rw [this]
  simpa [Finset.card_product] using this

theorem innerProduct_ofFn (v : List F) (n : Nat) (hv : v.length = n) (r : Fin n → F) :
    innerProduct (List.ofFn r) v = ∑ i : Fin n, r i * v[i.1]'(hv ▸ i.2) := by
  subst hv
  rw [innerProduct, ← List.sum_ofFn]
  congr 1
  apply List.ext_getElem
  · simp
  · intro i h1 h2; simp

/-- the value of the check of `power_pairs` with ratio `u` -/
def ratioDefect (u : F) (v : List F) (r : List F) : F := innerProduct r v.tail - u * innerProduct r v.dropLast

theorem ratioDefect_ofFn (u : F) (v : List F) (r : Fin (v.length - 1) → F) :
    ratioDefect u v (List.ofFn r) =
      ∑ i : Fin (v.length - 1), r i * (v[i.1 + 1] - u * v[i.1]) := by
  rw [ratioDefect, innerProduct_ofFn v.tail (v.length - 1) (by simp),
    innerProduct_ofFn v.dropLast (v.length - 1) (by simp), Finset.mul_sum, ← Finset.sum_sub_distrib]
  apply Finset.sum_congr rfl
  intro i _
  rw [List.getElem_tail, List.getElem_dropLast]
  ring

theorem innerProduct_scaled (u : F) (r w : List F) :
    innerProduct r (w.map (u * ·)) = u * innerProduct r w := by
  simp only [innerProduct]
  induction r generalizing w with
  | nil => simp
  | cons a r ih =>
    cases w with
    | nil => simp
    | cons b w =>
      simp only [List.map_cons, List.zipWith_cons_cons, List.sum_cons, ih]
      ring

theorem ratioDefect_geometric (u c : F) (n : Nat) (r : List F) :
    ratioDefect u ((List.range n).map fun i => c * u ^ i) r = 0 := by
  have : ((List.range n).map fun i => c * u ^ i).tail =
      ((List.range n).map fun i => c * u ^ i).dropLast.map (u * ·) := by
    apply List.ext_getElem
    · simp
    · intro i h1 h2
      simp only [List.getElem_tail, List.getElem_map, List.getElem_range, List.getElem_dropLast, pow_succ]
      ring
  rw [ratioDefect, this, innerProduct_scaled, sub_self]

theorem ratio_or_shift (u : F) (v : List F) (n : Nat) (hn : v.length - 1 = n) :
    (∀ (i : Nat) (h : i < v.length), v[i] = v[0] * u ^ i) ∨
      ∃ (j : Fin n) (c : F), c ≠ 0 ∧ ∀ (r : Fin n → F) (x : F),
        ratioDefect u v (List.ofFn (Function.update r j (r j + x))) = ratioDefect u v (List.ofFn r) + x * c := by
  subst hn
  by_cases h : ∀ (j : Fin (v.length - 1)), v[j.1 + 1] - u * v[j.1] = 0
  · left
    intro i
    induction i with
    | zero => intro _; simp
    | succ i ih =>
      intro hi
      have h1 := sub_eq_zero.1 (h ⟨i, by omega⟩)
      simp only at h1
      rw [h1, ih (by omega), pow_succ]
      ring
  · right
    push Not at h
    obtain ⟨j, hj⟩ := h
    refine ⟨j, _, hj, fun r x => ?_⟩
    rw [ratioDefect_ofFn, ratioDefect_ofFn, ← Finset.add_sum_erase _ _ (Finset.mem_univ j),
      ← Finset.add_sum_erase _ (fun i => r i * _) (Finset.mem_univ j)]
    have : ∀ i ∈ Finset.univ.erase j, Function.update r j (r j + x) i * (v[i.1 + 1] - u * v[i.1]) =
        r i * (v[i.1 + 1] - u * v[i.1]) := by
      intro i hi
      rw [Function.update_of_ne (Finset.ne_of_mem_erase hi)]
    rw [Finset.sum_congr rfl this, Function.update_self]
    ring

theorem isSameRatio_of [DecidableEq F] [DecidableEq GT] (P : Pairing F G1 G2 GT) {a b c d : F}
    (h : a * d = b * c) :
    isSameRatio P (a • P.one1, b • P.one1) (c • P.one2, d • P.one2) = true := by
  rw [isSameRatio, decide_eq_true_iff, pair_smul, pair_smul, h]

/-- what is checked by `verify_eval`, with all values written as multiples of the generators -/
structure TauChecks (pτ pα pβ : F × F × F) (sτ sα sβ : F) (bτ bα bβ bβ2 : F) (v1 v2 va vb : List F) (b2 : F)
    (r : TauDraws F) : Prop where
  pokτ : pτ.1 * pτ.2.2 = pτ.2.1 * sτ
  pokα : pα.1 * pα.2.2 = pα.2.1 * sα
  pokβ : pβ.1 * pβ.2.2 = pβ.2.1 * sβ
  one1 : v1[0]? = some 1
  one2 : v2[0]? = some 1
  τ : ∃ t, v1[1]? = some t ∧ bτ * pτ.2.2 = t * sτ
  α : ∃ t, va[0]? = some t ∧ bα * pα.2.2 = t * sα
  β : ∃ t, vb[0]? = some t ∧ bβ * pβ.2.2 = t * sβ
  β2 : ∃ t, vb[0]? = some t ∧ bβ * b2 = t * bβ2
  powers1 : ∃ u, v2[1]? = some u ∧ v1.length = r.tauG1.length + 1 ∧ ratioDefect u v1 r.tauG1 = 0
  powers2 : ∃ u, v1[1]? = some u ∧ v2.length = r.tauG2.length + 1 ∧ ratioDefect u v2 r.tauG2 = 0
  powersα : ∃ u, v2[1]? = some u ∧ va.length = r.alpha.length + 1 ∧ ratioDefect u va r.alpha = 0
  powersβ : ∃ u, v2[1]? = some u ∧ vb.length = r.beta.length + 1 ∧ ratioDefect u vb r.beta = 0

theorem powerPairs_some {G : Type} [AddCommGroup G] [DecidableEq G] [Module F G] (g : G) (v r : List F) (p : G × G) :
    powerPairs (v.map fun x => x • g) r = some p ↔
      v.length = r.length + 1 ∧ p = (innerProduct r v.dropLast • g, innerProduct r v.tail • g) := by
  by_cases hv : v = []
  · subst hv; simp [powerPairs]
  · by_cases h : v.length = r.length + 1
    · rw [powerPairs_map g v r hv h]
      simp [h, eq_comm]
    · have hl : 0 < v.length := List.length_pos_iff.2 hv
      rw [powerPairs, if_neg (by simpa using hv), mergePairs, multiexp, if_neg (by simp; omega)]
      simp [h]

variable [DecidableEq F] [DecidableEq G1] [DecidableEq G2] [DecidableEq GT]

theorem smul_one_inj {G : Type} [AddCommGroup G] [Module F G] {g : G} (hg : g ≠ 0) {a b : F}
    (h : a • g = b • g) : a = b := by
  have : (a - b) • g = 0 := by rw [sub_smul, h, sub_self]
  rcases smul_eq_zero.1 this with h | h
  · exact sub_eq_zero.1 h
  · exact absurd h hg

theorem Pairing.Cyclic.one1_ne {P : Pairing F G1 G2 GT} (hP : P.Cyclic) : P.one1 ≠ 0 := by
  intro h; apply hP.e_ne; rw [h]; simp

theorem Pairing.Cyclic.one2_ne {P : Pairing F G1 G2 GT} (hP : P.Cyclic) : P.one2 ≠ 0 := by
  intro h; apply hP.e_ne; rw [h]; simp

theorem smul_eq_one_iff {G : Type} [AddCommGroup G] [Module F G] {g : G} (hg : g ≠ 0) (a : F) :
    a • g = g ↔ a = 1 := by
  constructor
  · intro h; exact smul_one_inj hg (by rw [h, one_smul])
  · rintro rfl; exact one_smul _ _

/-- `verify_eval` returns `true` exactly if the checks hold. -/
theorem tauVerify_iff {P : Pairing F G1 G2 GT} (hP : P.Cyclic) (K : PokLib G2)
    (transcript : TauAccumulator G1 G2 → List UInt8) (pτ pα pβ : F × F × F) (sτ sα sβ : F)
    (before : TauAccumulator G1 G2) (bτ bα bβ bβ2 : F) (v1 v2 va vb : List F) (b2 : F) (r : TauDraws F)
    (h1 : before.tauG1[1]? = some (bτ • P.one1)) (ha : before.alphaTauG1[0]? = some (bα • P.one1))
    (hb : before.betaTauG1[0]? = some (bβ • P.one1)) (hb2 : before.betaG2 = bβ2 • P.one2)
    (hτ : pokChallenge K (pτ.1 • P.one1) (pτ.2.1 • P.one1) (transcript before) 0 = some (sτ • P.one2))
    (hα : pokChallenge K (pα.1 • P.one1) (pα.2.1 • P.one1) (transcript before) 1 = some (sα • P.one2))
    (hβ : pokChallenge K (pβ.1 • P.one1) (pβ.2.1 • P.one1) (transcript before) 2 = some (sβ • P.one2)) :
    tauVerify P K transcript ⟨⟨pτ.1 • P.one1, pτ.2.1 • P.one1, pτ.2.2 • P.one2⟩,
        ⟨pα.1 • P.one1, pα.2.1 • P.one1, pα.2.2 • P.one2⟩,
        ⟨pβ.1 • P.one1, pβ.2.1 • P.one1, pβ.2.2 • P.one2⟩⟩ before
        ⟨v1.map (· • P.one1), v2.map (· • P.one2), va.map (· • P.one1), vb.map (· • P.one1), b2 • P.one2⟩ r
        = some true ↔
      TauChecks pτ pα pβ sτ sα sβ bτ bα bβ bβ2 v1 v2 va vb b2 r := by
  have hpok : ∀ (p : F × F × F) (s : F), pokVerify P ⟨p.1 • P.one1, p.2.1 • P.one1, p.2.2 • P.one2⟩ (s • P.one2)
      = true ↔ p.1 * p.2.2 = p.2.1 * s := by
    intro p s
    rw [pokVerify, decide_eq_true_iff, pair_smul, pair_smul]
    exact ⟨hP.smul_inj, fun h => by rw [h]⟩
  simp only [tauVerify, hτ, hα, hβ, hb2, h1, ha, hb, Option.bind_eq_bind, Option.bind_some, firstFailure_true,
    List.forall_mem_cons, List.not_mem_nil, false_implies, implies_true, and_true, Option.some.injEq, hpok,
    Option.bind_eq_some_iff, Option.map_eq_some_iff, List.getElem?_map, Option.pure_def, powerPairs_some,
    decide_eq_true_iff, exists_exists_and_eq_and, smul_eq_one_iff hP.one1_ne, smul_eq_one_iff hP.one2_ne,
    isSameRatio_iff hP]
  have hA : ∀ (v : List F) (r : List F), v2[0]? = some 1 →
      ((∃ a, (v.length = r.length + 1 ∧
          a = (innerProduct r v.dropLast • P.one1, innerProduct r v.tail • P.one1)) ∧
        ∃ a_1, v2[0]? = some a_1 ∧ ∃ a_2, v2[1]? = some a_2 ∧
          isSameRatio P a (a_1 • P.one2, a_2 • P.one2) = true) ↔
      ∃ u, v2[1]? = some u ∧ v.length = r.length + 1 ∧ ratioDefect u v r = 0) := by
    intro v r h0
    constructor
    · rintro ⟨a, ⟨hl, rfl⟩, a1, ha1, a2, ha2, h⟩
      obtain rfl : 1 = a1 := Option.some.inj (h0.symm.trans ha1)
      rw [isSameRatio_iff hP] at h
      exact ⟨a2, ha2, hl, by rw [ratioDefect]; linear_combination -h⟩
    · rintro ⟨u, hu, hl, h⟩
      refine ⟨_, ⟨hl, rfl⟩, 1, h0, u, hu, ?_⟩
      rw [isSameRatio_iff hP]
      rw [ratioDefect] at h
      linear_combination -h
  constructor
  · rintro ⟨c1, c2, c3, ⟨a, c4, rfl⟩, ⟨a', c5, rfl⟩, c6, c7, c8, c9, c10, c11, c12, c13⟩
    refine ⟨c1, c2, c3, c4, c5, c6, c7, c8, c9, (hA _ _ c5).1 c10, ?_, (hA _ _ c5).1 c12, (hA _ _ c5).1 c13⟩
    obtain ⟨a, ha, u, hu, p, ⟨hl, rfl⟩, h⟩ := c11
    obtain rfl : 1 = a := Option.some.inj (c4.symm.trans ha)
    rw [isSameRatio_iff hP] at h
    exact ⟨u, hu, hl, by rw [ratioDefect]; linear_combination h⟩
  · intro c
    refine ⟨c.pokτ, c.pokα, c.pokβ, ⟨1, c.one1, rfl⟩, ⟨1, c.one2, rfl⟩, c.τ, c.α, c.β, c.β2,
      (hA _ _ c.one2).2 c.powers1, ?_, (hA _ _ c.one2).2 c.powersα, (hA _ _ c.one2).2 c.powersβ⟩
    obtain ⟨u, hu, hl, h⟩ := c.powers2
    refine ⟨1, c.one1, u, hu, _, ⟨hl, rfl⟩, ?_⟩
    rw [isSameRatio_iff hP]
    rw [ratioDefect] at h
    linear_combination h

/-! ## the result -/

theorem tauH_fold (P : Pairing F G1 G2 GT) (t : F) (n i : Nat) (Z : List F) (k : Nat) (acc : G1)
    (h : i + k + Z.length ≤ n) :
    (Z.zipIdx k).foldlM (fun (h : G1) (zj : F × Nat) => if zj.1 ≠ 0 then
        (((List.range n).map fun i => t ^ i • P.one1)[i + zj.2]?).map fun g => h + zj.1 • g else some h) acc =
      some (acc + (t ^ (i + k) * evalPoly Z t) • P.one1) := by
  induction Z generalizing k acc with
  | nil => simp [evalPoly]
  | cons z Z ih =>
    simp only [List.length_cons] at h
    have hstep : (if z ≠ 0 then (((List.range n).map fun i => t ^ i • P.one1)[i + k]?).map
        fun g => acc + z • g else some acc) = some (acc + (z * t ^ (i + k)) • P.one1) := by
      by_cases hz : z = 0
      · simp [hz]
      · rw [if_pos hz, List.getElem?_map, List.getElem?_range (by omega)]
        simp [smul_smul]
    rw [List.zipIdx_cons, List.foldlM_cons]
    simp only [hstep, Option.bind_eq_bind, Option.bind_some]
    rw [ih (k + 1) _ (by omega)]
    congr 1
    rw [add_assoc, ← add_smul]
    congr 2
    simp only [evalPoly, List.foldr_cons]
    ring

theorem tauH_eq (P : Pairing F G1 G2 GT) (t : F) (n i : Nat) (Z : List F) (h : i + Z.length ≤ n) :
    tauH Z ((List.range n).map fun i => t ^ i • P.one1) i = some ((t ^ i * evalPoly Z t) • P.one1) := by
  have := tauH_fold P t n i Z 0 0 (by simpa using h)
  simpa [tauH] using this

end Crypto3Zk
