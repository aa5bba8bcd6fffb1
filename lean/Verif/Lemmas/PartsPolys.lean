import Verif.Lemmas.LookupPartsForgery
import Verif.Lemmas.PlaceholderSoundRun

/-!
# The values of the verifier are those of polynomials, for any number of parts
-/

set_option linter.unusedSectionVars false

namespace Crypto3Zk

open Polynomial

variable {F : Type} [Field F] [DecidableEq F] {L : FftLib F} {A n : Nat}

/-- The loop over the parts, on polynomials, with the degrees. -/
theorem verifyParts_poly_degree {D K : Nat} : ∀ (alphas : List F) (ghs : List (F[X] × F[X])) (parts : List F[X])
    (prev f : F[X]), alphas.length ≤ ghs.length → alphas.length ≤ parts.length →
    (∀ g ∈ ghs, g.1.natDegree ≤ K ∧ g.2.natDegree ≤ K) → (∀ p ∈ parts, p.natDegree ≤ D) → prev.natDegree ≤ D →
    f.natDegree ≤ K + D →
    ∃ r : F[X] × F[X], r.1.natDegree ≤ K + D ∧ r.2.natDegree ≤ D ∧
      ∀ y, verifyParts (ghs.map fun g => (g.1.eval y, g.2.eval y)) alphas
        (parts.map (·.eval y)) (prev.eval y) (f.eval y) = some (r.1.eval y, r.2.eval y) := by
  intro alphas
  induction alphas with
  | nil =>
    intro ghs parts prev f _ _ _ _ hp hf
    exact ⟨(f, prev), hf, hp, fun y => by cases ghs <;> simp [verifyParts]⟩
  | cons a as ih =>
    intro ghs parts prev f h1 h2 h3 h4 hp hf
    cases ghs with
    | nil => simp at h1
    | cons g ghs =>
      cases parts with
      | nil => simp at h2
      | cons p parts =>
        have hg := h3 g (by simp)
        have hpp := h4 p (by simp)
        obtain ⟨r, r1, r2, hr⟩ := ih ghs parts p (f + C a * (prev * g.1 - p * g.2)) (by simpa using h1)
          (by simpa using h2) (fun g hg => h3 g (by simp [hg])) (fun p hp => h4 p (by simp [hp])) hpp
          (natDegree_add_of hf (natDegree_C_mul_of (natDegree_sub_of
            (natDegree_mul_of hp hg.1 (by omega)) (natDegree_mul_of hpp hg.2 (by omega)))))
        refine ⟨r, r1, r2, fun y => ?_⟩
        have := hr y
        simp only [eval_add, eval_mul, eval_sub, eval_C] at this
        simpa [verifyParts] using this

/-- The permutation argument, for any number of parts. -/
theorem permVerify_parts_polys {pre : PermData F} {s : Nat}
    (hid : ∀ p ∈ pre.sId, p.length ≤ 2 ^ n) (hsig : ∀ p ∈ pre.sSigma, p.length ≤ 2 ^ n)
    (hidl : pre.sId.length = s) (hsigl : pre.sSigma.length = s)
    (hql : pre.qLast.length ≤ 2 ^ n) (hqb : pre.qBlind.length ≤ 2 ^ n) (hl0 : pre.lagrange0.length ≤ 2 ^ n)
    (hparts : permutationParts s pre.mqc = some pre.parts)
    (cols : List (List F)) (hcl : cols.length = s) (hcols : ∀ c ∈ cols, c.length ≤ 2 ^ n)
    (V : List F) (hV : V.length ≤ 2 ^ n) (partitions : List (List F)) (hpl : partitions.length + 1 = pre.parts)
    (hps : ∀ p ∈ partitions, p.length ≤ 2 ^ n) (beta gamma : F) (alphas : List F)
    (hal : alphas.length = pre.parts - 1) :
    ∃ f0 f1 f2 : F[X], f0.natDegree ≤ 2 * (2 ^ n - 1) ∧ f1.natDegree ≤ (s + 2) * (2 ^ n - 1) ∧
      f2.natDegree ≤ 3 * (2 ^ n - 1) ∧
      ∀ (S : Type) (ch : S → F × S) (st : S) (y : F), (ch st).1 = beta → (ch (ch st).2).1 = gamma →
        (drawN ch (pre.parts - 1) (ch (ch st).2).2).1 = alphas →
        permVerify ch pre.lagrange0 pre.mqc pre.parts (trueClaims L n pre cols V partitions y) y st =
          some ((f0.eval y, f1.eval y, f2.eval y), (drawN ch (pre.parts - 1) (ch (ch st).2).2).2) := by
  rcases Nat.lt_or_ge pre.parts 2 with hlt | hge
  · have hone : pre.parts = 1 := by omega
    obtain rfl : partitions = [] := by rw [← List.length_eq_zero_iff]; omega
    obtain ⟨f0, f1, f2, d0, d1, d2, h⟩ := permVerify_polys (L := L) hid hsig hidl hsigl hql hqb hl0 hparts hone cols hcl
      hcols V hV beta gamma
    refine ⟨f0, f1, f2, d0, d1, d2, fun S ch st y hb hg _ => ?_⟩
    rw [h S ch st y hb hg, hone]
    rfl
  obtain ⟨k, hk⟩ : ∃ k, pre.parts = k + 2 := ⟨pre.parts - 2, by omega⟩
  obtain ⟨D, hD⟩ : ∃ D, D = 2 ^ n - 1 := ⟨_, rfl⟩
  have hpos : 0 < 2 ^ n := Nat.two_pow_pos n
  have hD1 : 2 ^ n = D + 1 := by omega
  rw [hD1] at hid hsig hql hqb hl0 hcols hV hps
  rw [← hD]
  obtain ⟨gz, hgz⟩ : ∃ gz, gz = List.zipWith (permFactor beta gamma) pre.sId cols := ⟨_, rfl⟩
  obtain ⟨hz, hhz⟩ : ∃ hz, hz = List.zipWith (permFactor beta gamma) pre.sSigma cols := ⟨_, rfl⟩
  have hgzl : gz.length = s := by simp [hgz, hidl, hcl]
  have hhzl : hz.length = s := by simp [hhz, hsigl, hcl]
  obtain ⟨G', hG'⟩ : ∃ G', G' = (groupFactors pre.mqc gz []).map polyProduct := ⟨_, rfl⟩
  obtain ⟨H', hH'⟩ : ∃ H', H' = (groupFactors pre.mqc hz []).map polyProduct := ⟨_, rfl⟩
  have gl : G'.length = k + 2 := by
    rw [hG', List.length_map, groupFactors_parts pre.mqc gz pre.parts (by rw [hgzl]; exact hparts), hk]
  have hl : H'.length = k + 2 := by
    rw [hH', List.length_map, groupFactors_parts pre.mqc hz pre.parts (by rw [hhzl]; exact hparts), hk]
  have hgd : ∀ g ∈ G', (toPoly g).natDegree ≤ s * D := by
    intro g hg
    rw [hG'] at hg
    refine getElem?_group_degree (mqc := pre.mqc) (hgz ▸ zipWith_permFactor_degree beta gamma hid hcols) (K := s) ?_ hg
    intro g' hg'
    have := ((groupFactors_sizes pre.mqc gz []).1 g' hg').1
    simp at this
    omega
  have hhd : ∀ g ∈ H', (toPoly g).natDegree ≤ s * D := by
    intro g hg
    rw [hH'] at hg
    refine getElem?_group_degree (mqc := pre.mqc) (hhz ▸ zipWith_permFactor_degree beta gamma hsig hcols) (K := s) ?_ hg
    intro g' hg'
    have := ((groupFactors_sizes pre.mqc hz []).1 g' hg').1
    simp at this
    omega
  have dV := toPoly_degree_le hV
  have dql := toPoly_degree_le hql
  have dqb := toPoly_degree_le hqb
  have dl0 := toPoly_degree_le hl0
  have dsh : (shiftDfs (L.root n) 1 (toPoly V)).natDegree ≤ D := shiftDfs_degree dV
  obtain ⟨r, r1, r2, hr⟩ := verifyParts_poly_degree (D := D) (K := s * D) alphas ((G'.map toPoly).zip (H'.map toPoly))
    (partitions.map toPoly) (toPoly V) 0 (by simp [hal, gl, hl]; omega) (by simp [hal]; omega) (by
      intro g hg
      have h1 := (List.of_mem_zip (a := g.1) (b := g.2) hg)
      obtain ⟨a, ha, e1⟩ := List.mem_map.1 h1.1
      obtain ⟨b, hb, e2⟩ := List.mem_map.1 h1.2
      rw [← e1, ← e2]
      exact ⟨hgd a ha, hhd b hb⟩) (by
      intro p hp
      obtain ⟨q, hq, rfl⟩ := List.mem_map.1 hp
      exact toPoly_degree_le (hps q hq)) dV (by simp)
  have hgG : (G'.getD (k + 1) []) ∈ G' := by rw [List.getD_eq_getElem _ _ (by omega)]; exact List.getElem_mem _
  have hgH : (H'.getD (k + 1) []) ∈ H' := by rw [List.getD_eq_getElem _ _ (by omega)]; exact List.getElem_mem _
  refine ⟨toPoly pre.lagrange0 * (1 - toPoly V),
    (r.1 + (r.2 * toPoly (G'.getD (k + 1) []) - shiftDfs (L.root n) 1 (toPoly V) *
      toPoly (H'.getD (k + 1) []))) * (toPoly pre.qLast + toPoly pre.qBlind - 1),
    toPoly pre.qLast * (toPoly V * toPoly V - toPoly V), ?_, ?_, ?_, ?_⟩
  · exact natDegree_mul_of dl0 (natDegree_sub_of natDegree_one_of dV) (by omega)
  · have e : (s + 2) * D = s * D + D + D := by ring
    refine natDegree_mul_of (a := s * D + D) (natDegree_add_of r1 (natDegree_sub_of ?_ ?_))
      (natDegree_sub_of (natDegree_add_of dql dqb) natDegree_one_of) (by omega)
    · exact natDegree_mul_of r2 (hgd _ hgG) (by omega)
    · exact natDegree_mul_of dsh (hhd _ hgH) (by omega)
  · exact natDegree_mul_of dql (natDegree_sub_of (natDegree_mul_of dV dV (m := 2 * D) (by omega))
      (dV.trans (by omega))) (by omega)
  intro S ch st y hb hg' hd
  have hgroups := verifyGroups_eq beta gamma pre.mqc y ((pre.sId.zip pre.sSigma).zip cols) [] [] rfl
  simp only [List.map_nil, List.prod_nil, List.length_nil] at hgroups
  rw [← zipWith_fst_zip (permFactor beta gamma) pre.sId pre.sSigma cols (by omega),
    ← zipWith_snd_zip (permFactor beta gamma) pre.sId pre.sSigma cols (by omega), ← hgz, ← hhz, ← hG', ← hH'] at hgroups
  have e1 : ((G'.map toPoly).zip (H'.map toPoly)).map (fun g => (g.1.eval y, g.2.eval y)) =
      (G'.map (evalPoly · y)).zip (H'.map (evalPoly · y)) := by
    rw [List.zip_map, List.map_map, List.zip_map]
    apply List.map_congr_left
    intro x _
    simp [eval_toPoly, Prod.map]
  have e2 : (partitions.map toPoly).map (·.eval y) = partitions.map (evalPoly · y) := by
    rw [List.map_map]
    apply List.map_congr_left
    intro x _
    simp [eval_toPoly]
  have hry := hr y
  rw [e1, e2, eval_toPoly, eval_zero] at hry
  have hget : ((G'.map (evalPoly · y)).zip (H'.map (evalPoly · y)))[k + 1]? =
      some (evalPoly (G'.getD (k + 1) []) y, evalPoly (H'.getD (k + 1) []) y) := by
    simp only [List.getElem?_zip_eq_some, List.getElem?_map]
    rw [List.getElem?_eq_getElem (by omega), List.getElem?_eq_getElem (by omega),
      List.getD_eq_getElem _ _ (by omega), List.getD_eq_getElem _ _ (by omega)]
    simp
  unfold permVerify trueClaims
  simp only [List.length_map]
  rw [if_neg (by omega), hb, hg', map_zip_zip, hgroups, hd, if_neg (by omega), if_neg (by omega), hry]
  simp only [Option.bind_eq_bind, Option.bind_some]
  rw [show alphas.length = k + 1 by omega, hget]
  simp only [Option.bind_some, eval_mul, eval_sub, eval_add, eval_one, eval_toPoly, shiftDfs_eval, zpow_one]

/-- The degrees of the products of groups of factors. -/
theorem group_degree {D : Nat} {fs : List F[X]} {r : List Nat}
    (h : List.Forall₂ (fun (p : F[X]) c => p.natDegree ≤ c * D) fs r) {gs : List (List F[X])} (hg : gs.flatten = fs) :
    ∀ g ∈ gs, (dfsProduct g).natDegree ≤ r.sum * D := by
  intro g hgm
  obtain ⟨a, b, rfl⟩ := List.append_of_mem hgm
  rw [List.flatten_append, List.flatten_cons] at hg
  rw [← hg] at h
  have h1 := List.forall₂_drop_append _ _ _ h.flip
  have h2 := List.forall₂_take_append _ _ _ h1
  refine (dfsProduct_degree h2.flip).trans (Nat.mul_le_mul_right _ ?_)
  exact List.Sublist.sum_le_sum ((List.take_sublist _ _).trans (List.drop_sublist _ _)) (fun _ _ => Nat.zero_le _)

/-- The lookup argument, for any number of parts. -/
theorem lookupVerify_parts_polys {t : PlonkTable F} {sys : LookupSystem F} {pre : LookupData F}
    (h : LookupSetup L A n t sys pre)
    (hd : ∀ g ∈ sys.gates, ∀ c ∈ g.constraints, ∀ e ∈ c.input, e.degree < 2 ^ 32)
    (h0 : ∀ p ∈ sys.parts pre.mqc, p ≠ 0) (h1 : (sys.parts pre.mqc).sum = sys.inputCount + sys.optionCount)
    (sorted : List (List F)) (hsl : ∀ c ∈ sorted, c.length = 2 ^ n)
    (hsc : sorted.length = sys.inputCount + sys.optionCount)
    (V : List F) (hVl : V.length = 2 ^ n) (partitions : List (List F)) (hps : ∀ p ∈ partitions, p.length = 2 ^ n)
    (hpl : partitions.length + 1 = (sys.parts pre.mqc).length)
    (theta beta gamma : F) (parts alphas : List F) (hal : parts.length = (sys.parts pre.mqc).length - 1) {K : Nat}
    (hK : ((sys.gates.flatMap fun g : LookupGate F => g.constraints.map fun k : LookupConstraint F => k.degree + 1) ++
      List.replicate sys.optionCount 3).sum ≤ K) :
    ∃ f0 f1 f2 f3 : F[X], f0.natDegree ≤ 2 * (2 ^ n - 1) ∧ f1.natDegree ≤ 3 * (2 ^ n - 1) ∧
      f2.natDegree ≤ (K + 2) * (2 ^ n - 1) ∧ f3.natDegree ≤ 2 * (2 ^ n - 1) ∧
      ∀ (S Com : Type) (ch : S → F × S) (absorb : Com → S → S) (com : Com) (st : S) (y : F)
        (ev : Nat → Int → ColumnType → Option F), TrueLookupEvaluations L n t sys y ev →
        (ch st).1 = theta → (ch (absorb com (ch st).2)).1 = beta →
        (ch (ch (absorb com (ch st).2)).2).1 = gamma →
        (drawN ch ((sys.parts pre.mqc).length - 1) (ch (ch (absorb com (ch st).2)).2).2).1 = parts →
        (drawN ch (sorted.length - 1) (drawN ch ((sys.parts pre.mqc).length - 1)
          (ch (ch (absorb com (ch st).2)).2).2).2).1 = alphas →
        lookupVerify ch absorb com sys pre.mqc ev (trueLookupClaims L n pre sorted V partitions y) st =
          some ((f0.eval y, f1.eval y, f2.eval y, f3.eval y),
            (drawN ch (sorted.length - 1) (drawN ch ((sys.parts pre.mqc).length - 1)
              (ch (ch (absorb com (ch st).2)).2).2).2).2) := by
  rcases Nat.lt_or_ge (sys.parts pre.mqc).length 2 with hlt | hge
  · obtain rfl : partitions = [] := by rw [← List.length_eq_zero_iff]; omega
    obtain ⟨p, hp⟩ := List.length_eq_one_iff.1 (show (sys.parts pre.mqc).length = 1 by omega)
    obtain ⟨f0, f1, f2, f3, d0, d1, d2, d3, hv⟩ := lookupVerify_polys h hd hp sorted hsl V hVl theta beta gamma alphas hK
    refine ⟨f0, f1, f2, f3, d0, d1, d2, d3, ?_⟩
    intro S Com ch absorb com st y ev hev hth hb hg _ ha
    rw [hp] at h0 h1 ha ⊢
    simp only [List.length_singleton, Nat.sub_self, drawN] at ha ⊢
    rw [hv S Com ch absorb com st y ev hev hth hb hg ha, if_pos]
    simp only [List.sum_cons, List.sum_nil, add_zero] at h1
    exact ⟨h1.symm, by omega, h0 p (by simp)⟩
  obtain ⟨k, hk⟩ : ∃ k, (sys.parts pre.mqc).length = k + 2 := ⟨(sys.parts pre.mqc).length - 2, by omega⟩
  have hL := h.lib
  have hn := h.small
  have ht := columns_length h.rect
  have hpos : 0 < 2 ^ n := Nat.two_pow_pos n
  have hql : pre.qLast.natDegree ≤ 2 ^ n - 1 := by
    rw [h.qLast]; exact dfsPoly_degree_le hL hn _ (by simp [lagrangeValues])
  have hqb : pre.qBlind.natDegree ≤ 2 ^ n - 1 := by
    rw [h.qBlind]; exact dfsPoly_degree_le hL hn _ (by simp [blindValues])
  have hl0 : pre.lagrange0.natDegree ≤ 2 ^ n - 1 := by
    rw [h.lagrange0]; exact dfsPoly_degree_le hL hn _ (by simp [lagrangeValues])
  have hV := dfsPoly_degree_le (L := L) hL hn _ hVl
  have hmask : (1 - pre.qLast - pre.qBlind).natDegree ≤ 2 ^ n - 1 :=
    natDegree_sub_of (natDegree_sub_of natDegree_one_of hql) hqb
  have hm : ∀ z, 1 - (pre.qLast.eval z + pre.qBlind.eval z) = (1 - pre.qLast - pre.qBlind).eval z := by
    intro z; simp only [eval_sub, eval_one]; ring
  obtain ⟨values, hvals, hvale⟩ := lookupValues_eval (L := L) (n := n) h.inTable theta
    (1 - pre.qLast - pre.qBlind)
  obtain ⟨inputs, hinps, hinpe⟩ := lookupInputs_eval (L := L) (n := n) h.inTable theta
  have hgl : (gFactors (L.root n) inputs values beta gamma).length = sys.inputCount + sys.optionCount := by
    have e1 := congrArg List.length (hinpe 0)
    have e2 := congrArg List.length (hvale 0)
    have e3 := sum_zipIdx sys.tables 0 fun tab => tab.options.length
    simp only [List.length_map, inputsAt, valuesAt, List.length_flatMap] at e1 e2
    simp only [gFactors, List.length_append, List.length_map, LookupSystem.inputCount,
      LookupSystem.optionCount]
    omega
  have hgf : List.Forall₂ (fun (p : F[X]) c => p.natDegree ≤ c * (2 ^ n - 1))
      (gFactors (L.root n) inputs values beta gamma)
      ((sys.gates.flatMap fun g : LookupGate F => g.constraints.map fun k : LookupConstraint F => k.degree + 1) ++
        List.replicate sys.optionCount 3) := by
    unfold gFactors
    have h1 := lookupInputs_degree hL hn ht hd hinps
    have h2 := lookupValues_degree hL hn ht hmask hvals
    rw [List.map_flatMap] at h1
    simp only [List.map_map] at h1
    refine List.rel_append ?_ ?_
    · refine List.forall₂_map_left_iff.2 (h1.imp ?_)
      intro p c hpc
      exact natDegree_C_mul_of (natDegree_add_of natDegree_C_of hpc)
    · refine List.forall₂_map_left_iff.2 (h2.imp ?_)
      intro p c hpc
      exact natDegree_add_of (natDegree_add_of natDegree_C_of hpc) (natDegree_C_mul_of (shiftDfs_degree hpc))
  have hhf : List.Forall₂ (fun (p : F[X]) c => p.natDegree ≤ c * (2 ^ n - 1))
      (hFactors (L.root n) (sorted.map (dfsPoly L)) beta gamma) (List.replicate sorted.length 1) := by
    rw [← List.map_const', hFactors, List.map_map]
    refine List.forall₂_map_left_iff.2 (List.forall₂_map_right_iff.2 ?_)
    rw [List.forall₂_same]
    intro col hcol
    have hcd := dfsPoly_degree_le (L := L) hL hn col (hsl col hcol)
    rw [one_mul]
    exact natDegree_add_of (natDegree_add_of natDegree_C_of hcd) (natDegree_C_mul_of (shiftDfs_degree hcd))
  have hc : sorted.length ≤ K := by
    refine le_trans ?_ hK
    have : ∀ l : List Nat, (∀ x ∈ l, 1 ≤ x) → l.length ≤ l.sum := by
      intro l
      induction l with
      | nil => simp
      | cons x l ih =>
        intro hx
        have h1 := ih fun y hy => hx y (by simp [hy])
        have h2 := hx x (by simp)
        simp only [List.length_cons, List.sum_cons]
        omega
    refine le_trans (le_of_eq ?_) (this _ ?_)
    · rw [hsc]
      simp [LookupSystem.inputCount, List.length_flatMap]
    · intro x hx
      rcases List.mem_append.1 hx with hx | hx
      · obtain ⟨g, -, hx⟩ := List.mem_flatMap.1 hx
        obtain ⟨k, -, rfl⟩ := List.mem_map.1 hx
        omega
      · rw [(List.mem_replicate.1 hx).2]
        omega
  obtain ⟨gg, hgg, hggl⟩ := groupByParts_some (sys.parts pre.mqc)
    (gFactors (L.root n) inputs values beta gamma) [] h0 (fun _ => rfl)
    (fun p hp => Nat.pos_of_ne_zero (h0 p (List.mem_of_head? hp))) (by simp [hgl, h1])
  obtain ⟨hh, hhh, hhhl⟩ := groupByParts_some (sys.parts pre.mqc)
    (hFactors (L.root n) (sorted.map (dfsPoly L)) beta gamma) [] h0 (fun _ => rfl)
    (fun p hp => Nat.pos_of_ne_zero (h0 p (List.mem_of_head? hp))) (by simp [hFactors, h1, hsc])
  obtain ⟨G', hG'⟩ : ∃ G', G' = gg.map dfsProduct := ⟨_, rfl⟩
  obtain ⟨H', hH'⟩ : ∃ H', H' = hh.map dfsProduct := ⟨_, rfl⟩
  have gl : G'.length = k + 2 := by rw [hG', List.length_map, hggl, hk]
  have hl : H'.length = k + 2 := by rw [hH', List.length_map, hhhl, hk]
  have hgd : ∀ g ∈ G', g.natDegree ≤ K * (2 ^ n - 1) := by
    intro g hg
    rw [hG'] at hg
    obtain ⟨x, hx, rfl⟩ := List.mem_map.1 hg
    exact (group_degree hgf (by simpa using groupByParts_flatten _ _ _ _ hgg) x hx).trans (Nat.mul_le_mul_right _ hK)
  have hhd : ∀ g ∈ H', g.natDegree ≤ K * (2 ^ n - 1) := by
    intro g hg
    rw [hH'] at hg
    obtain ⟨x, hx, rfl⟩ := List.mem_map.1 hg
    refine (group_degree hhf (by simpa using groupByParts_flatten _ _ _ _ hhh) x hx).trans (Nat.mul_le_mul_right _ ?_)
    simpa using hc
  obtain ⟨r, r1, r2, hr⟩ := verifyParts_poly_degree (D := 2 ^ n - 1) (K := K * (2 ^ n - 1)) parts (G'.zip H')
    (partitions.map (dfsPoly L)) (dfsPoly L V) 0 (by simp [gl, hl]; omega) (by simp; omega) (by
      intro g hg
      have e := (List.of_mem_zip (a := g.1) (b := g.2) hg)
      exact ⟨hgd _ e.1, hhd _ e.2⟩) (by
      intro p hp
      obtain ⟨q, hq, rfl⟩ := List.mem_map.1 hp
      exact dfsPoly_degree_le hL hn _ (hps q hq)) hV (by simp)
  have hgG : (G'.getD (k + 1) 0) ∈ G' := by rw [List.getD_eq_getElem _ _ (by omega)]; exact List.getElem_mem _
  have hgH : (H'.getD (k + 1) 0) ∈ H' := by rw [List.getD_eq_getElem _ _ (by omega)]; exact List.getElem_mem _
  have hKD : (K + 2) * (2 ^ n - 1) = K * (2 ^ n - 1) + (2 ^ n - 1) + (2 ^ n - 1) := by ring
  refine ⟨(1 - dfsPoly L V) * pre.lagrange0, pre.qLast * (dfsPoly L V * dfsPoly L V - dfsPoly L V),
    (r.1 + (r.2 * G'.getD (k + 1) 0 - shiftDfs (L.root n) 1 (dfsPoly L V) * H'.getD (k + 1) 0)) *
      (pre.qLast + pre.qBlind - 1), overlapSum L n pre.usable pre.lagrange0 sorted alphas, ?_, ?_, ?_, ?_, ?_⟩
  · exact natDegree_mul_of (natDegree_sub_of natDegree_one_of hV) hl0 (by omega)
  · exact natDegree_mul_of hql (natDegree_sub_of (natDegree_mul_of hV hV (m := 2 * (2 ^ n - 1)) (by omega))
      (hV.trans (by omega))) (by omega)
  · refine natDegree_mul_of (a := K * (2 ^ n - 1) + (2 ^ n - 1)) (natDegree_add_of r1 (natDegree_sub_of ?_ ?_))
      (natDegree_sub_of (natDegree_add_of hql hqb) natDegree_one_of) (by omega)
    · exact natDegree_mul_of r2 (hgd _ hgG) (by omega)
    · exact natDegree_mul_of (shiftDfs_degree hV) (hhd _ hgH) (by omega)
  · exact overlapSum_degree hL hn _ hl0 _ _ hsl
  intro S Com ch absorb com st y ev hev hth hb hg' hd' ha
  have hvv := verifyValues_eq ev sys theta (1 - (pre.qLast.eval y + pre.qBlind.eval y))
    (1 - (pre.qLast.eval (L.root n * y) + pre.qBlind.eval (L.root n * y)))
    (fun i => (columnPoly L t i .selector).eval y)
    (fun i => (columnPoly L t i .selector).eval (L.root n * y))
    (fun i => (columnPoly L t i .constant).eval y)
    (fun i => (columnPoly L t i .constant).eval (L.root n * y))
    (fun tab htab o ho => ((h.inTable.2 tab htab).2 o ho).1) (fun tab htab => by
      have h0 := hev.1 tab htab 0 (Or.inl rfl)
      have h1 := hev.1 tab htab 1 (Or.inr rfl)
      simp only [zpow_zero, one_mul, zpow_one] at h0 h1
      exact ⟨h0.1, h1.1, fun o ho c hc => ⟨h0.2 o ho c hc, h1.2 o ho c hc⟩⟩)
  simp only [hm] at hvv
  rw [← hvale y, ← hvale (L.root n * y)] at hvv
  have hvi := verifyInputs_eq ev sys theta (fun v => (varPoly L n t v).eval y) (fun g hg => by
    obtain ⟨h0, h1⟩ := hev.2 g hg
    refine ⟨?_, fun c hc e he v hv => ?_⟩
    · rw [h0, varPoly, shiftDfs_eval]; simp
    · rw [h1 c hc e he v hv, varPoly, shiftDfs_eval])
  rw [← hinpe y] at hvi
  have hgs := verifyPartProducts_eq _ _ _ _ y hgg
  have hhs := verifyPartProducts_eq _ _ _ _ y hhh
  rw [gFactors_eval] at hgs
  rw [hFactors_eval, List.map_map] at hhs
  simp only [List.map_nil, List.prod_nil, List.length_nil] at hgs hhs
  have eG : gg.map (fun g => (dfsProduct g).eval y) = G'.map (eval y) := by
    rw [hG', List.map_map]; rfl
  have eH : hh.map (fun g => (dfsProduct g).eval y) = H'.map (eval y) := by
    rw [hH', List.map_map]; rfl
  rw [eG] at hgs
  rw [eH] at hhs
  have hry := hr y
  rw [show (G'.zip H').map (fun g => (g.1.eval y, g.2.eval y)) = (G'.map (eval y)).zip (H'.map (eval y)) by
    rw [List.zip_map]; rfl, List.map_map, eval_zero] at hry
  simp only [Function.comp_def] at hry
  unfold lookupVerify
  simp only [trueLookupClaims, List.length_map]
  rw [hth]
  simp only [hm]
  rw [hvv]
  simp only [Option.bind_eq_bind, Option.bind_some]
  rw [hvi]
  simp only [Option.bind_some]
  rw [hb, hg', hd', if_neg (by omega), hgs]
  simp only [Option.bind_some]
  simp only [List.map_map, Function.comp_def] at hhs ⊢
  rw [hhs]
  simp only [Option.bind_some]
  rw [if_neg (by simp [gl, hl]; omega), if_neg (by omega), verifyLookupParts_eq _ _ _ _ _ _ (by simp [gl, hl]), hry]
  simp only [Option.bind_some]
  rw [show parts.length = k + 1 by omega, List.getElem?_map, List.getElem?_map,
    List.getElem?_eq_getElem (by omega), List.getElem?_eq_getElem (by omega)]
  simp only [Option.map_some, Option.bind_some, eval_mul, eval_sub, eval_add, eval_one, shiftDfs_eval, zpow_one]
  rw [ha, overlapSum_eval, zero_add, List.getD_eq_getElem _ _ (by omega), List.getD_eq_getElem _ _ (by omega)]

end Crypto3Zk
