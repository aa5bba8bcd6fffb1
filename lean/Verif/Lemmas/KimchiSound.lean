import Verif.Lemmas.KimchiComplete
import Mathlib.Algebra.Polynomial.Roots
import Mathlib.Algebra.Polynomial.Eval.Degree
import Mathlib.Algebra.BigOperators.Intervals
import Mathlib.Tactic.LinearCombination
import Mathlib.Tactic.FieldSimp
import Mathlib.Tactic.IntervalCases

/-!
# Extraction from trees of transcripts of the inner-product argument
-/

set_option linter.unusedSectionVars false

namespace Crypto3Zk

variable {F : Type} [Field F] {M : Type} [AddCommGroup M] [Module F M]

/-- `Σ_{j < m} f j • gⱼ` -/
def linF (m : Nat) (f : Nat → F) (g : List M) : M := ∑ j ∈ Finset.range m, f j • g.getD j 0

theorem linF_fold (m : Nat) (f : Nat → F) (x : F) (gh gl : List M) (hh : gh.length = m) (hl : gl.length = m) :
    linF m f (List.zipWith (fun hi lo => x • hi + lo) gh gl) = x • linF m f gh + linF m f gl := by
  rw [linF, linF, linF, Finset.smul_sum, ← Finset.sum_add_distrib]
  apply Finset.sum_congr rfl
  intro j hj
  have hj' := Finset.mem_range.mp hj
  rw [List.getD_eq_getElem _ _ (by simp; omega), List.getElem_zipWith, List.getD_eq_getElem _ _ (by omega),
    List.getD_eq_getElem _ _ (by omega)]
  module

theorem linF_add (m : Nat) (f f' : Nat → F) (g : List M) :
    linF m (fun j => f j + f' j) g = linF m f g + linF m f' g := by
  rw [linF, linF, linF, ← Finset.sum_add_distrib]
  exact Finset.sum_congr rfl fun j _ => add_smul _ _ _

theorem linF_sub (m : Nat) (f f' : Nat → F) (g : List M) :
    linF m (fun j => f j - f' j) g = linF m f g - linF m f' g := by
  rw [linF, linF, linF, ← Finset.sum_sub_distrib]
  exact Finset.sum_congr rfl fun j _ => sub_smul _ _ _

theorem linF_mul (m : Nat) (c : F) (f : Nat → F) (g : List M) :
    linF m (fun j => c * f j) g = c • linF m f g := by
  rw [linF, linF, Finset.smul_sum]
  exact Finset.sum_congr rfl fun j _ => mul_smul _ _ _

theorem linF_congr (m : Nat) (f f' : Nat → F) (g : List M) (h : ∀ j < m, f j = f' j) :
    linF m f g = linF m f' g :=
  Finset.sum_congr rfl fun j hj => by rw [h j (Finset.mem_range.mp hj)]

theorem linF_append (m : Nat) (f f' : Nat → F) (gl gh : List M) (hl : gl.length = m) :
    linF (m + m) (fun j => if j < m then f j else f' (j - m)) (gl ++ gh) = linF m f gl + linF m f' gh := by
  rw [linF, Finset.sum_range_add, linF, linF]
  congr 1
  · apply Finset.sum_congr rfl
    intro j hj
    have hj' := Finset.mem_range.mp hj
    rw [if_pos hj', List.getD_append _ _ _ _ (by omega)]
  · apply Finset.sum_congr rfl
    intro j _
    rw [if_neg (by omega), Nat.add_sub_cancel_left, List.getD_append_right _ _ _ _ (by omega), hl,
      Nat.add_sub_cancel_left]

theorem linF_lin (a : List F) (g : List M) (h : a.length = g.length) :
    lin a g = linF g.length (fun j => a.getD j 0) g := by
  induction a generalizing g with
  | nil =>
    obtain rfl := List.length_eq_zero_iff.mp h.symm
    simp [linF]
  | cons x a ih => cases g with
    | nil => simp at h
    | cons m g =>
      rw [lin_cons, ih g (by simpa using h), linF, linF, List.length_cons, Finset.sum_range_succ']
      simp only [List.getD_cons_succ, List.getD_cons_zero]
      rw [add_comm]

/-- four distinct roots of a cubic -/
theorem cubic_zero (x : Fin 4 → F) (hx : Function.Injective x) (c0 c1 c2 c3 : F)
    (h : ∀ i, c0 + c1 * x i + c2 * x i ^ 2 + c3 * x i ^ 3 = 0) : c0 = 0 ∧ c1 = 0 ∧ c2 = 0 ∧ c3 = 0 := by
  classical
  set p : Polynomial F := Polynomial.C c0 + Polynomial.C c1 * Polynomial.X +
    Polynomial.C c2 * Polynomial.X ^ 2 + Polynomial.C c3 * Polynomial.X ^ 3 with hp
  have hd : p.natDegree ≤ 3 := by
    rw [hp]
    compute_degree
  have h0 : p = 0 := by
    apply Polynomial.eq_zero_of_natDegree_lt_card_of_eval_eq_zero p hx
    · intro i
      rw [hp]
      simpa using h i
    · rw [Fintype.card_fin]
      omega
  have hc : ∀ n, p.coeff n = 0 := by simp [h0]
  refine ⟨?_, ?_, ?_, ?_⟩
  · simpa [hp, Polynomial.coeff_X, Polynomial.coeff_C, Polynomial.coeff_X_pow] using hc 0
  · simpa [hp, Polynomial.coeff_X, Polynomial.coeff_C, Polynomial.coeff_X_pow] using hc 1
  · simpa [hp, Polynomial.coeff_X, Polynomial.coeff_C, Polynomial.coeff_X_pow] using hc 2
  · simpa [hp, Polynomial.coeff_X, Polynomial.coeff_C, Polynomial.coeff_X_pow] using hc 3

/-- weights that read off `l`, `p` and `r` from `p + x⁻¹ l + x r` at three places -/
theorem weights (x : Fin 4 → F) (hx : Function.Injective x) (h0 : ∀ i, x i ≠ 0) :
    ∃ w : Fin 3 → Fin 3 → F, ∀ (V : Type) [AddCommGroup V] [Module F V] (l p r : V) (v : Fin 4 → V),
      (∀ i, v i = p + (x i)⁻¹ • l + x i • r) →
      w 0 0 • v 0 + w 0 1 • v 1 + w 0 2 • v 2 = l ∧
      w 1 0 • v 0 + w 1 1 • v 1 + w 1 2 • v 2 = p ∧
      w 2 0 • v 0 + w 2 1 • v 1 + w 2 2 • v 2 = r := by
  have h01 : x 0 - x 1 ≠ 0 := sub_ne_zero.mpr fun h => by simpa using hx h
  have h02 : x 0 - x 2 ≠ 0 := sub_ne_zero.mpr fun h => by simpa using hx h
  have h12 : x 1 - x 2 ≠ 0 := sub_ne_zero.mpr fun h => by simpa using hx h
  have z0 := h0 0
  have z1 := h0 1
  have z2 := h0 2
  refine ⟨![![x 0 * (x 1 * x 2) / ((x 0 - x 1) * (x 0 - x 2)),
      - (x 1 * (x 0 * x 2)) / ((x 0 - x 1) * (x 1 - x 2)), x 2 * (x 0 * x 1) / ((x 0 - x 2) * (x 1 - x 2))],
    ![- (x 0 * (x 1 + x 2)) / ((x 0 - x 1) * (x 0 - x 2)),
      x 1 * (x 0 + x 2) / ((x 0 - x 1) * (x 1 - x 2)), - (x 2 * (x 0 + x 1)) / ((x 0 - x 2) * (x 1 - x 2))],
    ![x 0 / ((x 0 - x 1) * (x 0 - x 2)), - x 1 / ((x 0 - x 1) * (x 1 - x 2)),
      x 2 / ((x 0 - x 2) * (x 1 - x 2))]], ?_⟩
  intro V _ _ l p r v hv
  rw [hv 0, hv 1, hv 2]
  simp only [Matrix.cons_val_zero, Matrix.cons_val_one, Matrix.cons_val]
  have key : ∀ (a b c A B C : F), a + b + c = B → a * (x 0)⁻¹ + b * (x 1)⁻¹ + c * (x 2)⁻¹ = A →
      a * x 0 + b * x 1 + c * x 2 = C →
      a • (p + (x 0)⁻¹ • l + x 0 • r) + b • (p + (x 1)⁻¹ • l + x 1 • r) + c • (p + (x 2)⁻¹ • l + x 2 • r) =
      B • p + A • l + C • r := by
    intro a b c A B C e1 e2 e3
    rw [← e1, ← e2, ← e3]
    module
  refine ⟨?_, ?_, ?_⟩
  · rw [key _ _ _ 1 0 0 (by field_simp; ring) (by field_simp; ring) (by field_simp; ring)]
    simp
  · rw [key _ _ _ 0 1 0 (by field_simp; ring) (by field_simp; ring) (by field_simp; ring)]
    simp
  · rw [key _ _ _ 0 0 1 (by field_simp; ring) (by field_simp; ring) (by field_simp; ring)]
    simp

/-- one level of the extraction -/
theorem extract_level (m : Nat) (gl gh : List M) (bl bh : List F) (u h P L R : M) (hgl : gl.length = m)
    (hgh : gh.length = m) (hnr : NoRelation F (gl ++ gh) u h) (x : Fin 4 → F)
    (hx : Function.Injective x) (h0 : ∀ i, x i ≠ 0) (a : Fin 4 → Nat → F) (ρ : Fin 4 → F)
    (he : ∀ i, P + (x i)⁻¹ • L + x i • R = x i • linF m (a i) gh + linF m (a i) gl +
      (x i * linF m (a i) bh + linF m (a i) bl) • u + ρ i • h) :
    ∃ (f f' : Nat → F) (t : F), P = linF m f gl + linF m f' gh + (linF m f bl + linF m f' bh) • u + t • h := by
  obtain ⟨w, hw⟩ := weights x hx h0
  obtain ⟨hL, hP, hR⟩ := hw M L P R (fun i => x i • linF m (a i) gh + linF m (a i) gl +
    (x i * linF m (a i) bh + linF m (a i) bl) • u + ρ i • h) (fun i => (he i).symm)
  -- coefficient functions
  let lo : Fin 3 → Nat → F := fun κ j => w κ 0 * a 0 j + w κ 1 * a 1 j + w κ 2 * a 2 j
  let hi : Fin 3 → Nat → F := fun κ j => w κ 0 * (x 0 * a 0 j) + w κ 1 * (x 1 * a 1 j) + w κ 2 * (x 2 * a 2 j)
  let tu : Fin 3 → F := fun κ => w κ 0 * (x 0 * linF m (a 0) bh + linF m (a 0) bl) +
    w κ 1 * (x 1 * linF m (a 1) bh + linF m (a 1) bl) + w κ 2 * (x 2 * linF m (a 2) bh + linF m (a 2) bl)
  let th : Fin 3 → F := fun κ => w κ 0 * ρ 0 + w κ 1 * ρ 1 + w κ 2 * ρ 2
  have hlo : ∀ κ (g : List M), linF m (lo κ) g =
      w κ 0 • linF m (a 0) g + w κ 1 • linF m (a 1) g + w κ 2 • linF m (a 2) g := by
    intro κ g
    simp only [lo]
    rw [linF_add, linF_add, linF_mul, linF_mul, linF_mul]
  have hhi : ∀ κ (g : List M), linF m (hi κ) g =
      (w κ 0 * x 0) • linF m (a 0) g + (w κ 1 * x 1) • linF m (a 1) g + (w κ 2 * x 2) • linF m (a 2) g := by
    intro κ g
    simp only [hi, ← mul_assoc]
    rw [linF_add, linF_add, linF_mul, linF_mul, linF_mul]
  have rep : ∀ κ (Q : M), w κ 0 • (x 0 • linF m (a 0) gh + linF m (a 0) gl +
      (x 0 * linF m (a 0) bh + linF m (a 0) bl) • u + ρ 0 • h) +
      w κ 1 • (x 1 • linF m (a 1) gh + linF m (a 1) gl +
      (x 1 * linF m (a 1) bh + linF m (a 1) bl) • u + ρ 1 • h) +
      w κ 2 • (x 2 • linF m (a 2) gh + linF m (a 2) gl +
      (x 2 * linF m (a 2) bh + linF m (a 2) bl) • u + ρ 2 • h) = Q →
      Q = linF m (lo κ) gl + linF m (hi κ) gh + tu κ • u + th κ • h := by
    intro κ Q hQ
    rw [← hQ, hlo, hhi]
    simp only [tu, th]
    module
  have rL := rep 0 L hL
  have rP := rep 1 P hP
  have rR := rep 2 R hR
  clear rep hlo hhi hL hP hR
  clear_value lo hi tu th
  -- compare coefficients
  have cmp : ∀ i, (∀ j < m, a i j = lo 1 j + (x i)⁻¹ * lo 0 j + x i * lo 2 j) ∧
      (∀ j < m, x i * a i j = hi 1 j + (x i)⁻¹ * hi 0 j + x i * hi 2 j) ∧
      x i * linF m (a i) bh + linF m (a i) bl = tu 1 + (x i)⁻¹ * tu 0 + x i * tu 2 := by
    intro i
    have e := he i
    have e2 : linF (gl ++ gh).length (fun j => if j < m then
          a i j - (lo 1 j + (x i)⁻¹ * lo 0 j + x i * lo 2 j) else
          x i * a i (j - m) - (hi 1 (j - m) + (x i)⁻¹ * hi 0 (j - m) + x i * hi 2 (j - m))) (gl ++ gh) +
        (x i * linF m (a i) bh + linF m (a i) bl - (tu 1 + (x i)⁻¹ * tu 0 + x i * tu 2)) • u +
        (ρ i - (th 1 + (x i)⁻¹ * th 0 + x i * th 2)) • h = 0 := by
      have hl : (gl ++ gh).length = m + m := by rw [List.length_append, hgl, hgh]
      rw [hl, linF_append m (fun j => a i j - (lo 1 j + (x i)⁻¹ * lo 0 j + x i * lo 2 j))
        (fun j => x i * a i j - (hi 1 j + (x i)⁻¹ * hi 0 j + x i * hi 2 j)) gl gh hgl]
      rw [linF_sub, linF_sub, linF_add, linF_add, linF_add, linF_add, linF_mul, linF_mul, linF_mul,
        linF_mul, linF_mul]
      rw [rL, rP, rR] at e
      rw [← sub_eq_zero] at e
      rw [← neg_eq_zero, ← e]
      module
    obtain ⟨c1, c2, -⟩ := hnr _ _ _ e2
    rw [List.length_append, hgl, hgh] at c1
    refine ⟨fun j hj => ?_, fun j hj => ?_, sub_eq_zero.mp c2⟩
    · have := c1 j (by omega)
      rw [if_pos hj] at this
      exact sub_eq_zero.mp this
    · have := c1 (j + m) (by omega)
      rw [if_neg (by omega), Nat.add_sub_cancel] at this
      exact sub_eq_zero.mp this
  -- the cubic for every position
  have cub : ∀ j < m, hi 0 j = 0 ∧ lo 0 j = hi 1 j ∧ lo 1 j = hi 2 j ∧ lo 2 j = 0 := by
    intro j hj
    obtain ⟨d0, d1, d2, d3⟩ := cubic_zero x hx (- hi 0 j) (lo 0 j - hi 1 j) (lo 1 j - hi 2 j) (lo 2 j)
      (fun i => by
        have e1 := (cmp i).1 j hj
        have e2 := (cmp i).2.1 j hj
        have hxi := h0 i
        have hinv : x i * (x i)⁻¹ = 1 := mul_inv_cancel₀ hxi
        linear_combination (-(x i) ^ 2) * e1 + x i * e2 + (hi 0 j - x i * lo 0 j) * hinv)
    exact ⟨neg_eq_zero.mp d0, sub_eq_zero.mp d1, sub_eq_zero.mp d2, d3⟩
  have av : ∀ i, ∀ b : List F, linF m (a i) b = linF m (lo 1) b + (x i)⁻¹ * linF m (hi 1) b := by
    intro i b
    have : linF m (a i) b = linF m (fun j => lo 1 j + (x i)⁻¹ * hi 1 j) b :=
      linF_congr m _ _ b fun j hj => by
        rw [(cmp i).1 j hj, (cub j hj).2.1, (cub j hj).2.2.2, mul_zero, add_zero]
    rw [this, linF_add, linF_mul, smul_eq_mul]
  have tu1 : tu 1 = linF m (lo 1) bl + linF m (hi 1) bh := by
    obtain ⟨-, d1, -, -⟩ := cubic_zero x hx (linF m (hi 1) bl - tu 0)
      (linF m (lo 1) bl + linF m (hi 1) bh - tu 1) (linF m (lo 1) bh - tu 2) 0 (fun i => by
        have e1 := (cmp i).2.2
        rw [av, av] at e1
        have hxi := h0 i
        have hinv : x i * (x i)⁻¹ = 1 := mul_inv_cancel₀ hxi
        linear_combination (x i) * e1 + (tu 0 - linF m (hi 1) bl - x i * linF m (hi 1) bh) * hinv)
    exact (sub_eq_zero.mp d1).symm
  exact ⟨lo 1, hi 1, th 1, by rw [← tu1]; exact rP⟩

/-! ## Trees -/

variable {G : Type} [AddCommGroup G] [Module F G]

theorem IpaTree.AllPaths.imp : ∀ {k : Nat} (t : IpaTree F G k)
    {Q Q' : List (G × G) → List F → G → F → F → F → Prop},
    t.AllPaths Q → (∀ lr cs d c z1 z2, cs.length = k → Q lr cs d c z1 z2 → Q' lr cs d c z1 z2) →
    t.AllPaths Q'
  | _, .leaf .., _, _, h, hi => ⟨hi _ _ _ _ _ _ rfl h.1, hi _ _ _ _ _ _ rfl h.2⟩
  | _, .node _ _ _ sub, _, _, h, hi => fun i => IpaTree.AllPaths.imp (sub i) (h i)
      fun lr cs d c z1 z2 hl hq => hi _ _ _ _ _ _ (by simp [hl]) hq

theorem coefRec_fold (x : F) (cs : List F) (gl gh : List M) (hl : gl.length = 2 ^ cs.length)
    (hh : gh.length = 2 ^ cs.length) :
    lin (coefRec (x :: cs)) (gl ++ gh) =
      lin (coefRec cs) (List.zipWith (fun hi lo => x • hi + lo) gh gl) := by
  rw [lin_fold_right _ _ _ _ (by rw [hl, hh]), coefRec, lin_append' _ _ _ _ (by rw [coefRec_length, hl]),
    lin_map_mul, add_comm]

/-- without relations between the generators, a tree of transcripts yields an opening -/
theorem ipa_extract (u h : G) : ∀ {k : Nat} (t : IpaTree F G k) (g : List G) (b : List F) (P : G),
    g.length = 2 ^ k → b.length = 2 ^ k → NoRelation F g u h → t.Distinct →
    t.AllPaths (fun lr cs d c z1 z2 => c • (P + lrSum lr cs) + d =
      z1 • (lin (coefRec cs) g + lin (coefRec cs) b • u) + z2 • h) →
    ∃ (f : Nat → F) (ρ : F), P = linF (2 ^ k) f g + linF (2 ^ k) f b • u + ρ • h
  | _, .leaf d c c' z1 z1' z2 z2', g, b, P, hg, hb, hnr, hd, ⟨h1, h2⟩ => by
    obtain ⟨g0, rfl⟩ := List.length_eq_one_iff.mp hg
    obtain ⟨b0, rfl⟩ := List.length_eq_one_iff.mp hb
    have hne : c - c' ≠ 0 := sub_ne_zero.mpr hd
    simp only [lrSum, coefRec, lin_cons, lin_nil_left, add_zero, one_smul, smul_eq_mul, one_mul] at h1 h2
    refine ⟨fun _ => (c - c')⁻¹ * (z1 - z1'), (c - c')⁻¹ * (z2 - z2'), ?_⟩
    have h3 : (c - c') • P = (z1 - z1') • (g0 + b0 • u) + (z2 - z2') • h := by
      have : (c - c') • P = (c • P + d) - (c' • P + d) := by module
      rw [this, h1, h2]
      module
    have h4 : P = (c - c')⁻¹ • ((c - c') • P) := by rw [smul_smul, inv_mul_cancel₀ hne, one_smul]
    rw [h4, h3]
    simp [linF]
    module
  | _, .node (k := k) l r x sub, g, b, P, hg, hb, hnr, ⟨hx, h0, hd⟩, hp => by
    rw [pow_succ] at hg hb
    have eg := (List.take_append_drop (2 ^ k) g).symm
    have eb := (List.take_append_drop (2 ^ k) b).symm
    have tg : (g.take (2 ^ k)).length = 2 ^ k := by rw [List.length_take]; omega
    have dg : (g.drop (2 ^ k)).length = 2 ^ k := by rw [List.length_drop]; omega
    have tb : (b.take (2 ^ k)).length = 2 ^ k := by rw [List.length_take]; omega
    have db : (b.drop (2 ^ k)).length = 2 ^ k := by rw [List.length_drop]; omega
    generalize g.take (2 ^ k) = gl at *
    generalize g.drop (2 ^ k) = gh at *
    generalize b.take (2 ^ k) = bl at *
    generalize b.drop (2 ^ k) = bh at *
    subst eg eb
    have step : ∀ i, ∃ (f : Nat → F) (ρ : F), P + (x i)⁻¹ • l + x i • r =
        x i • linF (2 ^ k) f gh + linF (2 ^ k) f gl +
          (x i * linF (2 ^ k) f bh + linF (2 ^ k) f bl) • u + ρ • h := by
      intro i
      obtain ⟨f, ρ, hf⟩ := ipa_extract u h (sub i) (List.zipWith (fun hi lo => x i • hi + lo) gh gl)
        (List.zipWith (fun hi lo => x i • hi + lo) bh bl) (P + (x i)⁻¹ • l + x i • r) (by simp [tg, dg])
        (by simp [tb, db]) (by
          intro f s t hst
          have hl : (List.zipWith (fun hi lo => x i • hi + lo) gh gl).length = 2 ^ k := by simp [tg, dg]
          rw [hl] at hst ⊢
          have hst' : linF (2 ^ k) f (List.zipWith (fun hi lo => x i • hi + lo) gh gl) + s • u + t • h = 0 := hst
          rw [linF_fold _ _ _ _ _ dg tg] at hst'
          have h2 := hnr (fun j => if j < 2 ^ k then f j else x i * f (j - 2 ^ k)) s t (by
            have := linF_append (2 ^ k) f (fun j => x i * f j) gl gh tg
            rw [linF_mul] at this
            have hll : (gl ++ gh).length = 2 ^ k + 2 ^ k := by rw [List.length_append, tg, dg]
            rw [hll]
            have h5 : linF (2 ^ k + 2 ^ k) (fun j => if j < 2 ^ k then f j else x i * f (j - 2 ^ k)) (gl ++ gh) +
              s • u + t • h = 0 := by
              rw [this, ← hst']
              abel
            exact h5)
          refine ⟨fun j hj => ?_, h2.2⟩
          have := h2.1 j (by rw [List.length_append, tg]; omega)
          rwa [if_pos hj] at this) (hd i)
        (IpaTree.AllPaths.imp _ (hp i) (fun lr cs d c z1 z2 hl hq => by
          have hlr : lrSum ((l, r) :: lr) (x i :: cs) = (x i)⁻¹ • l + x i • r + lrSum lr cs := rfl
          dsimp only at hq
          rw [hlr, coefRec_fold _ _ _ _ (by rw [hl]; exact tg) (by rw [hl]; exact dg),
            coefRec_fold _ _ _ _ (by rw [hl]; exact tb) (by rw [hl]; exact db)] at hq
          rw [← hq]
          module))
      refine ⟨f, ρ, ?_⟩
      rw [hf, linF_fold _ _ _ _ _ dg tg, linF_fold _ _ _ _ _ db tb, smul_eq_mul]
    choose a ρ ha using step
    obtain ⟨f, f', t, ht⟩ := extract_level (2 ^ k) gl gh bl bh u h P l r tg dg hnr x hx h0 a ρ ha
    refine ⟨fun j => if j < 2 ^ k then f j else f' (j - 2 ^ k), t, ?_⟩
    have : (2 : Nat) ^ (k + 1) = 2 ^ k + 2 ^ k := by rw [pow_succ]; omega
    rw [this, linF_append _ _ _ _ _ tg, linF_append _ _ _ _ _ tb]
    exact ht

end Crypto3Zk
