import Verif.Lemmas.PermutationMain
import Verif.Props.FRI

/-!
# C31, C32, C33: the permutation argument
-/

namespace Crypto3Zk

set_option linter.unusedSectionVars false

variable {F : Type} [Field F] {S : Type} {L : FftLib F} {A n : Nat} {d : TableDesc}
    {cs : List (PlonkVar × PlonkVar)} {order : List PlonkVar} {gi : List Nat} {delta : F} {mqc : Nat}
    {pre : PermData F}

/-! ## C31 -/

/-- C31: when the table satisfies the copy constraints, the running product starts and ends with one,
and the three polynomials of the argument vanish on every row: for every transcript, every iteration
order of the permuted columns and every number of parts. -/
theorem C31_completeness [DecidableEq F] (hS : PermSetup L A n d cs order gi delta mqc pre)
    (ch : S → F × S) (st st' : S) (column : Nat → Option (List F)) (res : PermResult F)
    (hc : CopiesHold d cs (columnValue L n column))
    (h : permProve ch L n pre column gi st = some (res, st')) :
    evalPoly res.V (L.root n ^ 0) = 1 ∧ evalPoly res.V (L.root n ^ d.usableRows) = 1 ∧
      VanishesOnRows L n res.F0 ∧ VanishesOnRows L n res.F1 ∧ VanishesOnRows L n res.F2 := by
  cases hcols : gi.mapM column with
  | none =>
    unfold permProve at h
    simp only [hcols, Option.bind_eq_bind, Option.bind_none] at h
    split_ifs at h
  | some cols => exact hS.complete ch st st' column res cols hcols hc h

/-- C31: the prover gets through unless one of at most (columns × rows) unlucky values of the second
challenge is drawn, whatever the table contains. -/
theorem C31_prover_succeeds [DecidableEq F] (hS : PermSetup L A n d cs order gi delta mqc pre)
    (hcs : cs ≠ []) (column : Nat → Option (List F)) (hcol : ∀ c ∈ gi, ∃ p, column c = some p)
    (beta : F) :
    ∃ bad : Finset F, bad.card ≤ gi.length * 2 ^ n ∧ ∀ gamma ∉ bad,
      ∀ (S : Type) (ch : S → F × S) (st : S), (ch st).1 = beta → (ch (ch st).2).1 = gamma →
        ∃ r, permProve ch L n pre column gi st = some r := by
  classical
  obtain ⟨cols, hcols⟩ : ∃ cols, gi.mapM column = some cols :=
    ⟨_, mapM_eq_some_map column (fun c => (column c).getD []) gi (fun c hc => by
      obtain ⟨p, hp⟩ := hcol c hc
      rw [hp]; rfl)⟩
  refine ⟨(Finset.range gi.length ×ˢ Finset.range (2 ^ n)).image fun t =>
    -(rowValue L n (pre.sSigma.getD t.1 []) t.2 * beta + rowValue L n (cols.getD t.1 []) t.2), ?_, ?_⟩
  · apply Finset.card_image_le.trans
    simp
  · intro gamma hg S ch st hb hgam
    apply hS.defined hcs ch st column cols hcols
    intro i hi j hj h0
    apply hg
    rw [Finset.mem_image]
    refine ⟨(i, j), by simp [hi, hj], ?_⟩
    rw [hb, hgam] at h0
    linear_combination -h0

/-! ## C33 for the permutation argument -/

/-- C33 (permutation argument): at every point `y`, on the true evaluations of the polynomials at `y`
and at `omega y`, the verifier computes the evaluations of the prover's three polynomials, and its
transcript ends in the same state. -/
theorem C33_permutation [DecidableEq F] (ch : S → F × S) (n : Nat) (pre : PermData F)
    (column : Nat → Option (List F)) (gi : List Nat) (st st' : S) (res : PermResult F)
    (cols : List (List F)) (hcols : gi.mapM column = some cols)
    (h : permProve ch L n pre column gi st = some (res, st')) (y : F) :
    permVerify ch pre.lagrange0 pre.mqc pre.parts
        (trueClaims L n pre cols res.V res.partitions y) y st =
      some ((evalPoly res.F0 y, evalPoly res.F1 y, evalPoly res.F2 y), st') :=
  permProve_verify ch n pre column gi st st' res cols hcols h y

/-! ## C32 -/

/-- What acceptance of a row says. -/
theorem RowsAccepted.row (hS : PermSetup L A n d cs order gi delta mqc pre)
    {σ : Equiv.Perm CellKey} (hf : PermFacts L n d cs gi delta mqc pre σ)
    {ch : S → F × S} {st : S} {cols : List (List F)} {V : List F} {parts : List (List F)}
    (hcl : cols.length = gi.length) (h : RowsAccepted ch st L n pre cols V parts) (j : Nat)
    (hj : j < 2 ^ n) :
    (if j = 0 then 1 else 0) * (1 - rowValue L n V j) = 0 ∧
    (if j = d.usableRows then 1 else 0) *
      (rowValue L n V j * rowValue L n V j - rowValue L n V j) = 0 ∧
    ∃ ghs : List (F × F), ghs = verifyGroups (ch st).1 (ch (ch st).2).1 pre.mqc
      (((pre.sId.map (evalPoly · (L.root n ^ j))).zip (pre.sSigma.map (evalPoly · (L.root n ^ j)))).zip
        (cols.map (evalPoly · (L.root n ^ j)))) 1 1 0 ∧ ghs.length = pre.parts ∧
      parts.length = pre.parts - 1 ∧
      (ghs.map (·.1)).prod = ((List.zipWith (permFactor (ch st).1 (ch (ch st).2).1) pre.sId cols).map
        (rowValue L n · j)).prod ∧
      (ghs.map (·.2)).prod = ((List.zipWith (permFactor (ch st).1 (ch (ch st).2).1) pre.sSigma
        cols).map (rowValue L n · j)).prod ∧
      (j < d.usableRows → (pre.parts = 1 →
        rowValue L n V (j + 1) * (ghs.map (·.2)).prod = rowValue L n V j * (ghs.map (·.1)).prod) ∧
        (pre.parts ≠ 1 → ∃ r, verifyParts ghs (drawN ch (pre.parts - 1) (ch (ch st).2).2).1
          (parts.map (evalPoly · (L.root n ^ j))) (rowValue L n V j) 0 = some r ∧
          r.1 + (r.2 * (ghs.getD (pre.parts - 1) (0, 0)).1 -
            rowValue L n V (j + 1) * (ghs.getD (pre.parts - 1) (0, 0)).2) = 0)) := by
  obtain ⟨st', h⟩ := h j hj
  have hy : L.root n ^ j = (L.domain n).elem j := by simp [FftLib.domain]
  have hsh : evalPoly V (L.root n * L.root n ^ j) = rowValue L n V (j + 1) := by
    rw [hy, root_mul_elem]; rfl
  have hrv : ∀ p, evalPoly p (L.root n ^ j) = rowValue L n p j := by intro p; rw [hy]; rfl
  unfold permVerify trueClaims at h
  simp only [List.length_map, hsh] at h
  by_cases h0 : cols.length ≠ pre.sId.length ∨ cols.length ≠ pre.sSigma.length ∨ pre.parts = 0
  · rw [if_pos h0] at h; simp at h
  rw [if_neg h0] at h
  push Not at h0
  rw [length_drawN] at h
  by_cases h1 : pre.parts - 1 ≠ parts.length
  · rw [if_pos h1] at h; simp at h
  rw [if_neg h1] at h
  push Not at h1
  obtain ⟨v1, v2, v3⟩ := verifyGroups_row hf (ch st).1 (ch (ch st).2).1 cols j _ rfl hcl
  have ql := hf.qLast j hj
  have qb := hf.qBlind j hj
  have l0 := hf.lagrange0 j hj
  by_cases hp : pre.parts = 1
  · rw [if_pos hp] at h
    simp only [Option.bind_eq_bind, Option.bind_eq_some_iff, Option.some.injEq, Prod.mk.injEq] at h
    obtain ⟨gh, hgh, ⟨e0, e1, e2⟩, _⟩ := h
    simp only [hrv] at e0 e1 e2
    rw [l0] at e0
    rw [ql] at e2
    refine ⟨e0, e2, _, rfl, v1, h1.symm, v2, v3, fun hu => ⟨fun _ => ?_, fun hp' => absurd hp hp'⟩⟩
    rw [ql, qb, if_neg (by omega), if_neg (by omega)] at e1
    obtain ⟨gh', hgh'⟩ := List.length_eq_one_iff.1 (v1.trans hp)
    rw [hgh'] at hgh ⊢
    simp only [List.getElem?_cons_zero, Option.some.injEq] at hgh
    subst hgh
    simp only [List.map_cons, List.map_nil, List.prod_singleton]
    linear_combination e1
  · rw [if_neg hp] at h
    simp only [Option.bind_eq_bind, Option.bind_eq_some_iff, Option.some.injEq, Prod.mk.injEq] at h
    obtain ⟨r, hr, gh, hgh, ⟨e0, e1, e2⟩, _⟩ := h
    rw [hrv V, hrv pre.lagrange0, l0] at e0
    rw [hrv V, hrv pre.qLast, ql] at e2
    rw [hrv pre.qLast, hrv pre.qBlind, ql, qb] at e1
    rw [hrv V] at hr
    refine ⟨e0, e2, _, rfl, v1, h1.symm, v2, v3, fun hu => ⟨fun hp' => absurd hp' hp, fun _ => ?_⟩⟩
    refine ⟨r, hr, ?_⟩
    rw [if_neg (by omega), if_neg (by omega)] at e1
    rw [List.getD_eq_getElem?_getD, hgh, Option.getD_some]
    linear_combination -e1

/-- C32: with one part (no limit on the quotient, or fewer permuted columns than the limit), values
that the verifier accepts on every row, for whatever running product the prover uses, force the copy
constraints: unless one of a few values of `beta` (at most columns × rows), or given `beta` one of a few
values of `gamma`, is drawn. The sets of bad values depend only on the table. -/
theorem C32_soundness_one_part_partial (hS : PermSetup L A n d cs order gi delta mqc pre)
    (hdelta : ∀ m, 0 < m → m < gi.length → delta ^ (2 ^ n * m) ≠ 1) (hd0 : delta ≠ 0)
    (hparts : pre.parts = 1) (column : Nat → Option (List F)) (cols : List (List F))
    (hcols : gi.mapM column = some cols) :
    ∃ badBeta : Finset F, badBeta.card ≤ gi.length * d.usableRows ∧ ∀ beta ∉ badBeta,
      ∃ badGamma : Finset F, badGamma.card ≤ 2 * (gi.length * d.usableRows) ∧ ∀ gamma ∉ badGamma,
        ∀ (S : Type) (ch : S → F × S) (st : S), (ch st).1 = beta → (ch (ch st).2).1 = gamma →
          ∀ (V : List F) (parts : List (List F)), RowsAccepted ch st L n pre cols V parts →
            CopiesHold d cs (columnValue L n column) := by
  obtain ⟨bb, hbb, hb⟩ := hS.sound_steps hdelta hd0 column cols hcols
  obtain ⟨σ, hf⟩ := hS.facts
  have hr := hS.rows
  have hu := hS.usable
  refine ⟨bb, hbb, fun beta hbeta => ?_⟩
  obtain ⟨bg, hbg, hg⟩ := hb beta hbeta
  refine ⟨bg, hbg, fun gamma hgamma S ch st hcb hcg V parts hacc => ?_⟩
  subst hcb hcg
  have hcl := length_mapM _ _ _ hcols
  apply hg _ hgamma (rowValue L n V)
  · have := (hacc.row hS hf hcl 0 (by omega)).1
    rw [if_pos rfl, one_mul] at this
    linear_combination -this
  · have := (hacc.row hS hf hcl d.usableRows (by omega)).2.1
    rw [if_pos rfl, one_mul] at this
    have h' : rowValue L n V d.usableRows * (rowValue L n V d.usableRows - 1) = 0 := by
      linear_combination this
    rcases mul_eq_zero.1 h' with h | h
    · exact .inl h
    · exact .inr (by linear_combination h)
  · intro j hj
    obtain ⟨ghs, _, _, _, e1, e2, h3⟩ := (hacc.row hS hf hcl j (by omega)).2.2
    rw [← e1, ← e2]
    exact (h3 hj).1 hparts

theorem drawN_scripted (alphas : List F) : (drawN scripted alphas.length alphas).1 = alphas := by
  induction alphas with
  | nil => rfl
  | cons a l ih => simp [drawN, scripted, ih]

/-- C32: with several parts, and with the additional challenges independent of the running product and
of the partition polynomials, the same: for every such choice of polynomials, if the copy constraints
do not hold then one of the additional challenges is determined (if it exists at all) by the others. -/
theorem C32_soundness_independent_alphas_partial (hS : PermSetup L A n d cs order gi delta mqc pre)
    (hdelta : ∀ m, 0 < m → m < gi.length → delta ^ (2 ^ n * m) ≠ 1) (hd0 : delta ≠ 0)
    (hparts : 2 ≤ pre.parts) (column : Nat → Option (List F)) (cols : List (List F))
    (hcols : gi.mapM column = some cols) :
    ∃ badBeta : Finset F, badBeta.card ≤ gi.length * d.usableRows ∧ ∀ beta ∉ badBeta,
      ∃ badGamma : Finset F, badGamma.card ≤ 2 * (gi.length * d.usableRows) ∧ ∀ gamma ∉ badGamma,
        ∀ (V : List F) (parts : List (List F)),
          CopiesHold d cs (columnValue L n column) ∨
          ∃ i < pre.parts - 1, ∀ (alphas : List F) (a a' : F), alphas.length = pre.parts - 1 →
            RowsAccepted scripted (beta :: gamma :: alphas.set i a) L n pre cols V parts →
            RowsAccepted scripted (beta :: gamma :: alphas.set i a') L n pre cols V parts →
            a = a' := by
  obtain ⟨bb, hbb, hb⟩ := hS.sound_steps hdelta hd0 column cols hcols
  obtain ⟨σ, hf⟩ := hS.facts
  have hr := hS.rows
  have hu := hS.usable
  refine ⟨bb, hbb, fun beta hbeta => ?_⟩
  obtain ⟨bg, hbg, hg⟩ := hb beta hbeta
  refine ⟨bg, hbg, fun gamma hgamma V parts => ?_⟩
  have hcl := length_mapM _ _ _ hcols
  by_contra hcon
  push Not at hcon
  obtain ⟨hno, hcon⟩ := hcon
  apply hno
  obtain ⟨al0, a0, _, hal0, hacc, _, _⟩ := hcon 0 (by omega)
  -- each part holds on each usable row
  have hpart : ∀ j < d.usableRows, ∀ i < pre.parts - 1, ∀ ghs : List (F × F),
      ghs = verifyGroups beta gamma pre.mqc
      (((pre.sId.map (evalPoly · (L.root n ^ j))).zip (pre.sSigma.map (evalPoly · (L.root n ^ j)))).zip
        (cols.map (evalPoly · (L.root n ^ j)))) 1 1 0 →
      (rowValue L n V j :: parts.map (evalPoly · (L.root n ^ j))).getD i 0 *
          (ghs.getD i (0, 0)).1 =
        (rowValue L n V j :: parts.map (evalPoly · (L.root n ^ j))).getD (i + 1) 0 *
          (ghs.getD i (0, 0)).2 := by
    intro j hj i hi ghs hghs
    obtain ⟨al, a, a', hal, h1, h2, hne⟩ := hcon i hi
    obtain ⟨g1, hg1, hgl, hpl, _, _, k1⟩ := (h1.row hS hf hcl j (by omega)).2.2
    obtain ⟨g2, hg2, _, _, _, _, k2⟩ := (h2.row hS hf hcl j (by omega)).2.2
    simp only [scripted, List.headD_cons, List.tail_cons] at hg1 hg2 k1 k2
    obtain rfl : g1 = ghs := hg1.trans hghs.symm
    obtain rfl : g2 = g1 := hg2.trans hg1.symm
    obtain ⟨r1, hr1, er1⟩ := (k1 hj).2 (by omega)
    obtain ⟨r2, hr2, er2⟩ := (k2 hj).2 (by omega)
    have hd1 := drawN_scripted (al.set i a)
    have hd2 := drawN_scripted (al.set i a')
    rw [List.length_set, hal] at hd1 hd2
    rw [hd1] at hr1
    rw [hd2, show al.set i a' = (al.set i a).set i a' by simp] at hr2
    obtain ⟨m1, m2⟩ := verifyParts_set (al.set i a) g2 _ _ _ _ r1 r2 i a' (by simp; omega)
      (by rw [List.length_set]; omega) (by simp; omega) hr1 hr2
    rw [m1] at er1
    have hget : (al.set i a).getD i 0 = a := by
      rw [List.getD_eq_getElem _ _ (by simp; omega)]; simp
    rw [hget] at m2
    have h3 : r1.1 = r2.1 := by linear_combination er1 - er2
    rw [h3] at m2
    have h4 : (a - a') * ((rowValue L n V j :: parts.map (evalPoly · (L.root n ^ j))).getD i 0 *
        (g2.getD i (0, 0)).1 -
      (rowValue L n V j :: parts.map (evalPoly · (L.root n ^ j))).getD (i + 1) 0 *
        (g2.getD i (0, 0)).2) = 0 := by rw [← m2]; ring
    rcases mul_eq_zero.1 h4 with h5 | h5
    · exact absurd (by linear_combination h5) hne
    · linear_combination h5
  apply hg _ hgamma (rowValue L n V)
  · have := (hacc.row hS hf hcl 0 (by omega)).1
    rw [if_pos rfl, one_mul] at this
    linear_combination -this
  · have := (hacc.row hS hf hcl d.usableRows (by omega)).2.1
    rw [if_pos rfl, one_mul] at this
    have h' : rowValue L n V d.usableRows * (rowValue L n V d.usableRows - 1) = 0 := by
      linear_combination this
    rcases mul_eq_zero.1 h' with h | h
    · exact .inl h
    · exact .inr (by linear_combination h)
  · intro j hj
    obtain ⟨ghs, hghs, hgl, hpl, e1, e2, h3⟩ := (hacc.row hS hf hcl j (by omega)).2.2
    simp only [scripted, List.headD_cons, List.tail_cons] at hghs e1 e2 h3
    rw [← e1, ← e2]
    obtain ⟨r, hr1, er⟩ := (h3 hj).2 (by omega)
    have hd1 := drawN_scripted (al0.set 0 a0)
    rw [List.length_set, hal0] at hd1
    rw [hd1] at hr1
    obtain ⟨c1, c2⟩ := verifyParts_chain _ ghs _ _ _ r (by rw [List.length_set]; omega)
      (by simp; omega) hr1 (fun i hi => hpart j hj i (by simp at hi; omega) ghs hghs)
    apply c2
    rw [List.length_set, hal0]
    rw [c1] at er
    linear_combination er

/-- FINDING (C32): with several parts the additional challenges are drawn before the prover commits to
the running product and the partition polynomials (permutation_argument.hpp:177-181, prover.hpp:156-172,
verifier.hpp:320-340), so the hypothesis of independence above is not met, and the argument proves
nothing: with two permuted columns and a limit of two, for whatever columns, the constant running product
one and a suitable partition polynomial are accepted on every row (unless one of a few values of the
additional challenge is drawn, or the first factor of a row is zero). -/
theorem C32_forgery {a b : Nat} (hS : PermSetup L A n d cs order [a, b] delta 2 pre) (c0 c1 : List F)
    (beta gamma : F)
    (hne : ∀ j < d.usableRows, evalPoly (pre.sSigma.getD 0 []) (L.root n ^ j) * beta +
      (evalPoly c0 (L.root n ^ j) + gamma) ≠ 0) :
    ∃ badAlpha : Finset F, badAlpha.card ≤ d.usableRows ∧ ∀ alpha ∉ badAlpha,
      ∃ p, RowsAccepted scripted [beta, gamma, alpha] L n pre [c0, c1] [1] [p] := by
  classical
  obtain ⟨σ, hf⟩ := hS.facts
  obtain ⟨i0, i1, hi⟩ := List.length_eq_two.1 hf.sIdLen
  obtain ⟨s0, s1, hs⟩ := List.length_eq_two.1 hf.sSigmaLen
  have hparts : pre.parts = 2 := by
    have := hf.parts
    simp [permutationParts] at this
    exact this.symm
  have hr := hS.rows
  have hu := hS.usable
  rw [hs] at hne
  simp only [List.getD_cons_zero] at hne
  set fac : List F → List F → Nat → F := fun s c j =>
    evalPoly s (L.root n ^ j) * beta + (evalPoly c (L.root n ^ j) + gamma) with hfac
  refine ⟨(Finset.range d.usableRows).image fun j => fac i1 c1 j / fac s0 c0 j,
    Finset.card_image_le.trans (by simp), fun alpha halpha => ?_⟩
  have hden : ∀ j < d.usableRows, fac i1 c1 j - alpha * fac s0 c0 j ≠ 0 := by
    intro j hj h0
    apply halpha
    rw [Finset.mem_image]
    refine ⟨j, by simpa using hj, ?_⟩
    rw [div_eq_iff (hne j hj)]
    linear_combination h0
  set vals : List F := (List.range (2 ^ n)).map fun j =>
    (fac s1 c1 j - alpha * fac i0 c0 j) / (fac i1 c1 j - alpha * fac s0 c0 j) with hvals
  refine ⟨L.coefficients vals, fun j hj => ?_⟩
  have hp : evalPoly (L.coefficients vals) (L.root n ^ j) =
      (fac s1 c1 j - alpha * fac i0 c0 j) / (fac i1 c1 j - alpha * fac s0 c0 j) := by
    have := rowValue_coefficients hS.lib n hS.small vals (by simp [hvals]) j hj
    rw [List.getD_eq_getElem _ _ (by simpa [hvals] using hj)] at this
    simp only [hvals, List.getElem_map, List.getElem_range] at this
    exact this
  have ql : evalPoly pre.qLast (L.root n ^ j) = if j = d.usableRows then 1 else 0 := hf.qLast j hj
  have qb : evalPoly pre.qBlind (L.root n ^ j) = if d.usableRows + 1 ≤ j then 1 else 0 :=
    hf.qBlind j hj
  refine ⟨[], ?_⟩
  have hclosed : permVerify scripted pre.lagrange0 pre.mqc pre.parts
      (trueClaims L n pre [c0, c1] [1] [L.coefficients vals] (L.root n ^ j)) (L.root n ^ j)
      [beta, gamma, alpha] =
      some ((evalPoly pre.lagrange0 (L.root n ^ j) * (1 - 1),
        (0 + alpha * (1 * (1 * fac i0 c0 j) -
            evalPoly (L.coefficients vals) (L.root n ^ j) * (1 * fac s0 c0 j)) +
          (evalPoly (L.coefficients vals) (L.root n ^ j) * (1 * fac i1 c1 j) - 1 * (1 * fac s1 c1 j))) *
          ((evalPoly pre.qLast (L.root n ^ j) + evalPoly pre.qBlind (L.root n ^ j)) - 1),
        evalPoly pre.qLast (L.root n ^ j) * (1 * 1 - 1)), []) := by
    unfold permVerify trueClaims
    rw [hi, hs, hparts, hf.mqcEq]
    simp [scripted, drawN, verifyGroups, verifyParts, hfac, evalPoly_single]
  rw [hclosed, hp]
  simp only [Option.some.injEq, Prod.mk.injEq, and_true]
  refine ⟨by ring, ?_, by ring⟩
  by_cases hju : j < d.usableRows
  · have := hden j hju
    field_simp
    ring
  · have hm : evalPoly pre.qLast (L.root n ^ j) + evalPoly pre.qBlind (L.root n ^ j) = 1 := by
      rw [ql, qb]
      by_cases e : j = d.usableRows
      · rw [if_pos e, if_neg (by omega), add_zero]
      · rw [if_neg e, if_pos (by omega), zero_add]
    rw [hm, sub_self, mul_zero]

/-! ## concrete cases -/

/-- Two witness columns, four rows of which three are usable. -/
def exPermDesc : TableDesc := ⟨2, 0, 0, 0, 3, 4⟩

/-- Row 0 of the first column equals row 1 of the second, which equals row 2 of the first. -/
def exPermCopies : List (PlonkVar × PlonkVar) :=
  [(⟨0, 0, false, .witness⟩, ⟨1, 1, false, .witness⟩),
   (⟨0, 2, false, .witness⟩, ⟨1, 1, false, .witness⟩)]

def exPermOrder : List PlonkVar := [⟨1, 0, true, .witness⟩, ⟨0, 0, true, .witness⟩]

def exPermData (mqc : Nat) : PermData (ZMod 17) :=
  (permPreprocess (FftLib.ofRoots exRoots17) 2 (2 ^ 64) exPermDesc exPermCopies exPermOrder 3 mqc).getD
    ⟨[], [], [], [], [], 0, 0, 0⟩

theorem exPermSetup (mqc : Nat) (h : mqc = 0 ∨ mqc = 2) :
    PermSetup (FftLib.ofRoots exRoots17) 4 2 exPermDesc exPermCopies exPermOrder [1, 0] 3 mqc
      (exPermData mqc) where
  lib := exLib17_lawful
  small := by norm_num
  rows := rfl
  usable := by decide
  width := by decide
  rows32 := by decide
  copies := by
    intro c hc v hv
    simp only [exPermCopies, List.mem_cons, List.not_mem_nil, or_false] at hc
    rcases hc with rfl | rfl <;> rcases hv with rfl | rfl <;>
      exact ⟨by simp [TableDesc.HasColumn, exPermDesc], by decide, by decide, by decide⟩
  nodup := by decide
  members := by
    intro v
    constructor
    · intro hv
      simp only [exPermOrder, List.mem_cons, List.not_mem_nil, or_false] at hv
      rcases hv with rfl | rfl <;> decide
    · intro hv
      simp [permutedVars, exPermCopies] at hv
      simp [exPermOrder]
      tauto
  indices := by decide
  data := by
    refine ⟨2 ^ 64, le_rfl, ?_⟩
    have key : (permPreprocess (FftLib.ofRoots exRoots17) 2 (2 ^ 64) exPermDesc exPermCopies
        exPermOrder 3 mqc).isSome = true := by
      rcases h with rfl | rfl
      · decide +kernel
      · decide +kernel
    obtain ⟨p, hp⟩ := Option.isSome_iff_exists.1 key
    rw [exPermData, hp, Option.getD_some]

/-- A table that satisfies the copy constraints. -/
def exPermColumn (c : Nat) : Option (List (ZMod 17)) :=
  if c = 0 then some ((FftLib.ofRoots exRoots17).coefficients [5, 2, 5, 1])
  else if c = 1 then some ((FftLib.ofRoots exRoots17).coefficients [9, 5, 7, 8])
  else none

/-- A table that does not. -/
def exPermBadColumn (c : Nat) : Option (List (ZMod 17)) :=
  if c = 0 then some ((FftLib.ofRoots exRoots17).coefficients [5, 2, 6, 1])
  else if c = 1 then some ((FftLib.ofRoots exRoots17).coefficients [9, 4, 7, 8])
  else none

theorem exPermColumn_holds :
    CopiesHold exPermDesc exPermCopies (columnValue (FftLib.ofRoots exRoots17) 2 exPermColumn) := by
  intro c hc x y hx hy
  simp only [exPermCopies, List.mem_cons, List.not_mem_nil, or_false] at hc
  rcases hc with rfl | rfl
  · simp only [TableDesc.cellOf, TableDesc.globalIndex, Option.map_some, Option.some.injEq] at hx hy
    subst hx hy
    decide +kernel
  · simp only [TableDesc.cellOf, TableDesc.globalIndex, Option.map_some, Option.some.injEq] at hx hy
    subst hx hy
    decide +kernel

theorem exPermBadColumn_fails : ¬ CopiesHold exPermDesc exPermCopies
    (columnValue (FftLib.ofRoots exRoots17) 2 exPermBadColumn) := by
  intro h
  have := h (⟨0, 0, false, .witness⟩, ⟨1, 1, false, .witness⟩) (by simp [exPermCopies]) (0, 0) (1, 1)
    rfl rfl
  revert this
  decide +kernel

/-- The hypotheses of `C31_completeness` and `C33_permutation` are met, with one part and with two. -/
example : (permProve scripted (FftLib.ofRoots exRoots17) 2 (exPermData 0) exPermColumn [1, 0]
      [2, 10]).isSome = true ∧
    (permProve scripted (FftLib.ofRoots exRoots17) 2 (exPermData 2) exPermColumn [1, 0]
      [2, 10, 7]).isSome = true := by
  decide +kernel

/-- The hypotheses of `C32_soundness_one_part_partial` and `C32_soundness_independent_alphas_partial` on the parameter
`delta` and on the number of parts are met. -/
example : (∀ m, 0 < m → m < 2 → (3 : ZMod 17) ^ (2 ^ 2 * m) ≠ 1) ∧ (3 : ZMod 17) ≠ 0 ∧
    (exPermData 0).parts = 1 ∧ (exPermData 2).parts = 2 := by
  refine ⟨?_, by decide, by decide +kernel, by decide +kernel⟩
  intro m h1 h2
  interval_cases m
  decide +kernel

/-- The forgery at work: a table that violates the copy constraints is accepted on every row. -/
theorem C32_forgery_witness : ∃ (alpha : ZMod 17) (p : List (ZMod 17)),
    ¬ CopiesHold exPermDesc exPermCopies
      (columnValue (FftLib.ofRoots exRoots17) 2 exPermBadColumn) ∧
    PermSetup (FftLib.ofRoots exRoots17) 4 2 exPermDesc exPermCopies exPermOrder [1, 0] 3 2
      (exPermData 2) ∧
    RowsAccepted scripted [2, 10, alpha] (FftLib.ofRoots exRoots17) 2 (exPermData 2)
      [(exPermBadColumn 1).getD [], (exPermBadColumn 0).getD []] [1] [p] := by
  obtain ⟨bad, hb, h⟩ := C32_forgery (exPermSetup 2 (.inr rfl)) ((exPermBadColumn 1).getD [])
    ((exPermBadColumn 0).getD []) 2 10 (by decide +kernel)
  obtain ⟨alpha, ha⟩ : ∃ alpha, alpha ∉ bad := by
    by_contra hcon
    push Not at hcon
    have : (Finset.univ : Finset (ZMod 17)) ⊆ bad := fun a _ => hcon a
    have h1 := Finset.card_le_card this
    have h2 : (Finset.univ : Finset (ZMod 17)).card = 17 := by decide
    have h3 : exPermDesc.usableRows = 3 := rfl
    omega
  obtain ⟨p, hp⟩ := h alpha ha
  exact ⟨alpha, p, exPermBadColumn_fails, exPermSetup 2 (.inr rfl), hp⟩

/-! ## copy constraints on selectors -/

/-- One witness and one selector column; the constraint equates their rows 0. -/
def exSelDesc : TableDesc := ⟨1, 0, 0, 1, 3, 4⟩

def exSelCopies : List (PlonkVar × PlonkVar) :=
  [(⟨0, 0, false, .witness⟩, ⟨0, 0, false, .selector⟩)]

def exSelOrder : List PlonkVar := [⟨0, 0, true, .witness⟩, ⟨0, 0, true, .selector⟩]

def exSelColumn (c : Nat) : Option (List (ZMod 17)) :=
  if c = 0 then some ((FftLib.ofRoots exRoots17).coefficients [1, 2, 5, 1])
  else if c = 1 then some ((FftLib.ofRoots exRoots17).coefficients [1, 0, 1, 0])
  else none

/-- FINDING (C31): the grid of the preprocessor leaves out the selector columns
(preprocessor.hpp:298-307), and reading a cell that is not in its map gives the cell `(0, 0)`
(preprocessor.hpp:358-360, 452-454). With a copy constraint on a selector, which nothing forbids, the
table satisfies the constraint but the running product does not close, and the prover's polynomial does
not vanish on the rows. -/
theorem C31_selector_copy_fails :
    (∀ c ∈ exSelCopies, ∀ v, v = c.1 ∨ v = c.2 → exSelDesc.HasColumn v ∧ 0 ≤ v.rotation ∧
      v.rotation < exSelDesc.usableRows) ∧
    CopiesHold exSelDesc exSelCopies (columnValue (FftLib.ofRoots exRoots17) 2 exSelColumn) ∧
    ∃ pre res st', permPreprocess (FftLib.ofRoots exRoots17) 2 (2 ^ 64) exSelDesc exSelCopies
        exSelOrder 3 0 = some pre ∧
      permProve scripted (FftLib.ofRoots exRoots17) 2 pre exSelColumn [0, 1] [2, 3] =
        some (res, st') ∧
      evalPoly res.V ((FftLib.ofRoots exRoots17).root 2 ^ exSelDesc.usableRows) ≠ 1 ∧
      ¬ VanishesOnRows (FftLib.ofRoots exRoots17) 2 res.F2 := by
  refine ⟨?_, ?_, ?_⟩
  · intro c hc v hv
    simp only [exSelCopies, List.mem_singleton] at hc
    subst hc
    rcases hv with rfl | rfl <;> exact ⟨by simp [TableDesc.HasColumn, exSelDesc], by decide, by decide⟩
  · intro c hc x y hx hy
    simp only [exSelCopies, List.mem_singleton] at hc
    subst hc
    simp only [TableDesc.cellOf, TableDesc.globalIndex, Option.map_some, Option.some.injEq] at hx hy
    subst hx hy
    decide +kernel
  · have key : ((permPreprocess (FftLib.ofRoots exRoots17) 2 (2 ^ 64) exSelDesc exSelCopies
        exSelOrder 3 0).bind fun pre =>
        (permProve scripted (FftLib.ofRoots exRoots17) 2 pre exSelColumn [0, 1] [2, 3]).map fun r =>
          (decide (evalPoly r.1.V ((FftLib.ofRoots exRoots17).root 2 ^ exSelDesc.usableRows) ≠ 1),
           decide (evalPoly r.1.F2 ((FftLib.ofRoots exRoots17).root 2 ^ 3) ≠ 0))) =
        some (true, true) := by decide +kernel
    obtain ⟨pre, hpre, key⟩ := Option.bind_eq_some_iff.1 key
    obtain ⟨r, hr, key⟩ := Option.map_eq_some_iff.1 key
    simp only [Prod.mk.injEq, decide_eq_true_eq] at key
    exact ⟨pre, r.1, r.2, hpre, hr, key.1, fun h => key.2 (h 3 (by norm_num))⟩

end Crypto3Zk
