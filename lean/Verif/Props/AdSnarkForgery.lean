import Verif.Props.AdSnark

/-!
# C110: proofs about authenticated data can be made without a witness

The proving key of the argument on authenticated data keeps the elements of the inputs in the query
from which the part of the proof for the *other* variables is made
(basic_policy.hpp:640-641, 705-707: the prefix of `At` is not zeroed, unlike in PGHR13), and both parts
are checked against one and the same secret `alphaA`. So the element of the constant and the elements of the inputs can be taken away
again in the other part.
-/

set_option linter.unusedSectionVars false

namespace Crypto3Zk

variable {F : Type} [Field F] [DecidableEq F] {D : EvalDomain F}
variable {G1 G2 GT : Type} [AddCommGroup G1] [Module F G1] [AddCommGroup G2] [Module F G2]
  [AddCommGroup GT] [Module F GT]
variable {Label Seed SK VK Sig : Type}

/-- the element of the difference of two inputs, computed from the proving key alone -/
def adDifference (pk : AdPK F G1 G2) (x p : List F) : G1 × G1 :=
  ((List.range p.length).map fun k => (p.getD k 0 - x.getD k 0) • pk.aQuery.get (k + 1)).sum

/-- the cheating prover: the honest prover runs on an assignment `(p, w)` of its choice with the tags of the
signed data `x`; the difference of the inputs is moved from the authenticated part to the other
part -/
def adForge (D : EvalDomain F) (pk : AdPK F G1 G2) (x p w : List F)
    (auth : List (AdAuthData F G2 Sig)) (d1 d2 d3 dauth : F) : Option (AdProof G1 G2) :=
  (adProve D pk p w auth d1 d2 d3 dauth).map fun π =>
    { π with gA := π.gA + adDifference pk x p, gAau := π.gAau - adDifference pk x p }

/-- beyond its end the query reads as zero -/
theorem kcBatch_get_out (g1 : G1) (g2 : G2) (c1 c2 : F) (v : List F) (i : Nat) (hi : v.length ≤ i) :
    (⟨v.length, (List.range v.length).flatMap (kcEntry g1 g2 c1 c2 v)⟩ : KcVec (G1 × G2)).get i
      = 0 := by
  have key : ∀ l : List Nat, i ∉ l → (l.flatMap (kcEntry g1 g2 c1 c2 v)).lookup i = none := by
    intro l
    induction l with
    | nil => intro _; rfl
    | cons j l ih =>
      intro h
      have hj : i ≠ j := fun e => h (by simp [e])
      have := ih fun hm => h (by simp [hm])
      rw [List.flatMap_cons]
      unfold kcEntry at this ⊢
      split
      · simpa using this
      · rw [List.singleton_append, List.lookup_cons]
        have hb : (i == j) = false := by simpa using hj
        simp only [hb]
        exact this
  unfold KcVec.get
  simp only
  rw [key _ (by simpa using hi)]
  rfl

/-- the entries of the query of a generated key are consistent pairs, and those of the inputs are the ones
of the verification key -/
theorem adGenerate_query (P : Pairing F G1 G2 GT) (cs : R1CS F) (prms : AdPubParams G1)
    (T : Pghr13Trapdoor F) (chunks : Nat) (pk : AdPK F G1 G2) (vk : AdVK G1 G2)
    (h : adGenerate P D cs prms T chunks = some (pk, vk)) :
    (∀ k < vk.Ain.length, vk.Ain[k]? = some (pk.aQuery.get (k + 1)).1) ∧
      ∀ k, (pk.aQuery.get k).2 = T.alphaA • (pk.aQuery.get k).1 := by
  unfold adGenerate at h
  simp only [Option.bind_eq_bind, kcBatchExp_spec, Option.bind_some, Option.pure_def] at h
  obtain ⟨cs', -, h⟩ := Option.bind_eq_some_iff.1 h
  obtain ⟨q, -, h⟩ := Option.bind_eq_some_iff.1 h
  obtain ⟨K, -, h⟩ := Option.bind_eq_some_iff.1 h
  simp only [Option.some.injEq, Prod.mk.injEq] at h
  obtain ⟨rfl, rfl⟩ := h
  refine ⟨fun k hk => ?_, fun k => ?_⟩
  · simp only [List.length_map, List.length_range] at hk
    simp [hk, Nat.add_comm]
  · by_cases hk : k < (q.At ++ [q.Zt]).length
    · rw [kcBatch_get _ _ _ _ _ _ hk]
      simp only [smul_smul]
      congr 1
      ring
    · rw [kcBatch_get_out _ _ _ _ _ _ (Nat.le_of_not_lt hk)]
      simp

/-- the forged proof satisfies the equations of the verifiers, and the authentication equation for
the signed data -/
theorem adForged (A : AdPrimitives F G2 Label Seed SK VK Sig) (P : Pairing F G1 G2 GT) (hD : D.Lawful)
    (cs : R1CS F) (hr : cs.WellRanged) (hm : cs.numConstraints + cs.numInputs + 1 ≤ D.m)
    (T : Pghr13Trapdoor F) (chunks : Nat)
    (hwf1 : ∀ g, P.wf1 g = true) (hwf2 : ∀ g, P.wf2 g = true)
    (skp : SK) (vkp : VK) (S : Seed) (i : F)
    (x p w : List F) (hx : x.length = cs.primaryInputSize)
    (hp : p.length = cs.primaryInputSize) (hw : w.length = cs.auxiliaryInputSize)
    (hsat : cs.isSatisfied p w = some true) (labels : List Label)
    (hl : labels.length = cs.primaryInputSize) (d1 d2 d3 dauth : F) :
    let keys := adAuthGenerate P skp vkp S i
    ∃ pk vk auth π, adGenerate P D cs keys.1 T chunks = some (pk, vk) ∧
      adSign A P x keys.2.2 labels = some auth ∧
      adForge D pk x p w auth d1 d2 d3 dauth = some π ∧
      AdEquations P vk π ∧ vk.Ain.length = cs.primaryInputSize ∧
      AdAuthentic A vk π keys.2.2 labels := by
  intro keys
  obtain ⟨cs', hcs'⟩ := C16_swap_defined cs hr
  obtain ⟨a0, a, hgen⟩ := adProve_eq (Sig := Sig) P hD cs cs' hr hm T chunks hcs'
  obtain ⟨pk, vk, hg, e1, e2, e3, e4, e5, e6, e7, e8, e9, hprove⟩ := hgen i
  obtain ⟨sA, sB, sC, hd⟩ := hprove p w hp hw hsat
  obtain ⟨h, hH, hπ⟩ := hd d1 d2 d3 dauth
  have hs : adSign A P x keys.2.2 labels
      = some (List.zipWith (adSignOne A P keys.2.2) x labels) := by rw [adSign, if_pos (by omega)]
  set auth := List.zipWith (adSignOne A P keys.2.2) x labels with hauth
  have la : auth.length = cs.primaryInputSize := by simp [hauth, hx, hl]
  have hpr := hπ auth la.ge
  have hAin : vk.Ain.length = cs.primaryInputSize := by rw [e9]; simp
  obtain ⟨q1, q2⟩ := adGenerate_query P cs _ T chunks pk vk hg
  set ni := cs.primaryInputSize with hni
  clear_value ni
  have hq : ∀ k < ni, pk.aQuery.get (k + 1)
      = ((T.rA * a k) • P.one1, (T.rA * T.alphaA * a k) • P.one1) := by
    intro k hk
    have h1 := q1 k (by omega)
    rw [e9] at h1
    simp only [List.getElem?_map, List.getElem?_range hk, Option.map_some, Option.some.injEq] at h1
    have h2 := q2 (k + 1)
    refine Prod.ext h1.symm ?_
    rw [h2, ← h1, smul_smul]
    congr 1
    ring
  have hdiff : adDifference pk x p
      = ((T.rA * ∑ k ∈ Finset.range ni, (p.getD k 0 - x.getD k 0) * a k) • P.one1,
         (T.rA * T.alphaA * ∑ k ∈ Finset.range ni, (p.getD k 0 - x.getD k 0) * a k) • P.one1) := by
    rw [adDifference, hp]
    have : ((List.range ni).map fun k => (p.getD k 0 - x.getD k 0) • pk.aQuery.get (k + 1))
        = (List.range ni).map fun k => (((p.getD k 0 - x.getD k 0) * (T.rA * a k)) • P.one1,
          ((p.getD k 0 - x.getD k 0) * (T.rA * T.alphaA * a k)) • P.one1) := by
      refine List.map_congr_left fun k hk => ?_
      rw [hq k (List.mem_range.1 hk)]
      simp only [Prod.smul_mk, smul_smul]
    have hsum : ∀ (f : Nat → G1 × G1) (n : Nat),
        ((List.range n).map f).sum = ∑ k ∈ Finset.range n, f k := by
      intro f n
      induction n with
      | zero => simp
      | succ n ih => simp [List.range_succ, Finset.sum_range_succ, ih]
    rw [this, hsum]
    refine Prod.ext ?_ ?_
    · simp only [Prod.fst_sum, ← Finset.sum_smul, Finset.mul_sum]
      exact congrArg (· • P.one1) (Finset.sum_congr rfl fun k _ => by ring)
    · simp only [Prod.snd_sum, ← Finset.sum_smul, Finset.mul_sum]
      exact congrArg (· • P.one1) (Finset.sum_congr rfl fun k _ => by ring)
  have hsplit : ∑ k ∈ Finset.range ni, (p.getD k 0 - x.getD k 0) * a k
      = ∑ k ∈ Finset.range ni, p.getD k 0 * a k - ∑ k ∈ Finset.range ni, x.getD k 0 * a k := by
    rw [← Finset.sum_sub_distrib]
    exact Finset.sum_congr rfl fun k _ => by ring
  set sp := ∑ k ∈ Finset.range ni, p.getD k 0 * a k with hsp
  set sx := ∑ k ∈ Finset.range ni, x.getD k 0 * a k with hsx
  rw [hsplit] at hdiff
  have hf := congrArg (Option.map fun π : AdProof G1 G2 =>
    { π with gA := π.gA + adDifference pk x p, gAau := π.gAau - adDifference pk x p }) hpr
  change adForge D pk x p w auth d1 d2 d3 dauth = _ at hf
  rw [Option.map_some, hdiff] at hf
  refine ⟨pk, vk, auth, _, hg, hs, hf, ?_, hAin, ?_⟩
  · have one2 : ∀ g : G1, P.e g P.one2 = P.e g ((1 : F) • P.one2) := by intro g; rw [one_smul]
    refine ⟨fun g _ => hwf1 g, hwf2 _, ?_, ?_, ?_, ?_, ?_, ?_⟩
    all_goals
      simp only [e1, e2, e3, e4, e5, e6, e7, e8, Prod.fst_add, Prod.snd_add, Prod.fst_sub,
        Prod.snd_sub, ← add_smul, ← sub_smul, one2, pair_smul]
      congr 1
    · ring
    · ring
    · ring
    · ring
    · linear_combination (T.rA * T.rB) * hH
    · ring
  · have key : (List.zipWith (fun g l => A.prf keys.2.2.S l • g) vk.Ain labels).sum
        = (∑ k ∈ Finset.range ni, (labels.map (A.prf S)).getD k 0 * (T.rA * a k)) • P.one1 := by
      have h1 : vk.Ain = batchExp P.one1 ((List.range ni).map fun k => T.rA * a k) := by
        rw [e9, batchExp, List.map_map]; rfl
      rw [h1]
      have h2 := zipWith_smul_batch P.one1 ((List.range ni).map fun k => T.rA * a k)
        (labels.map (A.prf S))
      rw [List.zipWith_map_right] at h2
      refine h2.trans ?_
      rw [innerProduct_eq_sum _ _ (by simp [hl]), List.length_map, hl]
      congr 1
      refine Finset.sum_congr rfl fun k hk => ?_
      have := Finset.mem_range.1 hk
      rw [List.getD_eq_getElem (List.map _ (List.range ni)) _ (by simpa using this)]
      simp
    rw [AdAuthentic, key]
    simp only [Prod.fst_sub, ← sub_smul, smul_smul, ← add_smul]
    refine congrArg (· • P.one1) ?_
    have h3 : ∀ k ∈ Finset.range ni, (auth.map (·.mu)).getD k 0 * a k
        = (labels.map (A.prf S)).getD k 0 * a k + i * (x.getD k 0 * a k) := by
      intro k hk
      have := Finset.mem_range.1 hk
      rw [List.getD_eq_getElem _ _ (by simp [la]; omega), List.getD_eq_getElem _ _ (by simp [hl]; omega),
        List.getD_eq_getElem _ _ (by omega)]
      simp only [hauth, List.getElem_map, List.getElem_zipWith, adSignOne, keys, adAuthGenerate]
      ring
    rw [Finset.sum_congr rfl h3, Finset.sum_add_distrib, ← Finset.mul_sum, ← hsx]
    have h4 : ∑ k ∈ Finset.range ni, (labels.map (A.prf S)).getD k 0 * (T.rA * a k)
        = T.rA * ∑ k ∈ Finset.range ni, (labels.map (A.prf S)).getD k 0 * a k := by
      rw [Finset.mul_sum]
      exact Finset.sum_congr rfl fun k _ => by ring
    rw [h4]
    simp only [keys, adAuthGenerate]
    ring

/-- the cheating prover without a witness: the authenticated part is the honest one for the signed data
`x`; the other part takes it away again, together with the element of the constant. What the verifier puts into
the divisibility check is then zero, and multiples of the vanishing polynomial satisfy all
equations. Only the proving key, the data and the tags are used. -/
def adForgeAny (pk : AdPK F G1 G2) (x : List F) (auth : List (AdAuthData F G2 Sig))
    (dauth d2 d3 : F) : Option (AdProof G1 G2) := do
  let n := pk.cs.numVariables
  let h0 ← pk.hQuery[0]?
  let k2 ← pk.kQuery[n + 2]?
  let k3 ← pk.kQuery[n + 3]?
  let muA ← adMuA pk x.length auth dauth
  let gAau := dauth • pk.aQuery.get (n + 1)
    + ((List.range x.length).map fun k => x.getD k 0 • pk.aQuery.get (k + 1)).sum
  pure ⟨0 - pk.aQuery.get 0 - gAau, d2 • pk.bQuery.get (n + 1), d3 • pk.cQuery.get (n + 1),
    0 - d3 • h0, d2 • k2 + d3 • k3, gAau, muA⟩

/-- the authentication equation for the honest authenticated part -/
theorem adAuthentic_of (A : AdPrimitives F G2 Label Seed SK VK Sig) (P : Pairing F G1 G2 GT)
    (skp : SK) (S : Seed) (i : F) (ni : Nat) (vk : AdVK G1 G2) (rA z da : F) (a : Nat → F)
    (hAin : vk.Ain = (List.range ni).map (fun k => (rA * a k) • P.one1))
    (x : List F) (labels : List Label) (hx : x.length = ni) (hl : labels.length = ni)
    (π : AdProof G1 G2)
    (hau : π.gAau.1 = (rA * ((∑ k ∈ Finset.range ni, x.getD k 0 * a k) + da * z)) • P.one1)
    (hmu : π.muA = (rA * (da * z * i + ∑ k ∈ Finset.range ni,
      ((List.zipWith (adSignOne A P ⟨i, skp, S⟩) x labels).map (·.mu)).getD k 0 * a k)) • P.one1) :
    AdAuthentic A vk π ⟨i, skp, S⟩ labels := by
  have key : (List.zipWith (fun g l => A.prf S l • g) vk.Ain labels).sum
      = (∑ k ∈ Finset.range ni, (labels.map (A.prf S)).getD k 0 * (rA * a k)) • P.one1 := by
    have h1 : vk.Ain = batchExp P.one1 ((List.range ni).map fun k => rA * a k) := by
      rw [hAin, batchExp, List.map_map]; rfl
    rw [h1]
    have h2 := zipWith_smul_batch P.one1 ((List.range ni).map fun k => rA * a k)
      (labels.map (A.prf S))
    rw [List.zipWith_map_right] at h2
    refine h2.trans ?_
    rw [innerProduct_eq_sum _ _ (by simp [hl]), List.length_map, hl]
    congr 1
    refine Finset.sum_congr rfl fun k hk => ?_
    have := Finset.mem_range.1 hk
    rw [List.getD_eq_getElem (List.map _ (List.range ni)) _ (by simpa using this)]
    simp
  rw [AdAuthentic]
  simp only
  rw [key, hmu, hau, smul_smul, ← add_smul]
  refine congrArg (· • P.one1) ?_
  have h3 : ∀ k ∈ Finset.range ni,
      ((List.zipWith (adSignOne A P ⟨i, skp, S⟩) x labels).map (·.mu)).getD k 0 * a k
      = (labels.map (A.prf S)).getD k 0 * a k + i * (x.getD k 0 * a k) := by
    intro k hk
    have := Finset.mem_range.1 hk
    rw [List.getD_eq_getElem _ _ (by simp [hx, hl]; omega),
      List.getD_eq_getElem _ _ (by simp [hl]; omega), List.getD_eq_getElem _ _ (by omega)]
    simp only [List.getElem_map, List.getElem_zipWith, adSignOne]
    ring
  rw [Finset.sum_congr rfl h3, Finset.sum_add_distrib, ← Finset.mul_sum]
  have h4 : ∑ k ∈ Finset.range ni, (labels.map (A.prf S)).getD k 0 * (rA * a k)
      = rA * ∑ k ∈ Finset.range ni, (labels.map (A.prf S)).getD k 0 * a k := by
    rw [Finset.mul_sum]
    exact Finset.sum_congr rfl fun k _ => by ring
  rw [h4]
  ring

/-- the proof made without a witness satisfies the equations of the verifiers, and the authentication
equation for the signed data -/
theorem adForgedAny (A : AdPrimitives F G2 Label Seed SK VK Sig) (P : Pairing F G1 G2 GT)
    (hD : D.Lawful) (cs : R1CS F) (hr : cs.WellRanged)
    (hm : cs.numConstraints + cs.numInputs + 1 ≤ D.m) (T : Pghr13Trapdoor F) (chunks : Nat)
    (hwf1 : ∀ g, P.wf1 g = true) (hwf2 : ∀ g, P.wf2 g = true)
    (skp : SK) (vkp : VK) (S : Seed) (i : F) (x : List F) (hx : x.length = cs.primaryInputSize)
    (labels : List Label) (hl : labels.length = cs.primaryInputSize) (dauth d2 d3 : F) :
    let keys := adAuthGenerate P skp vkp S i
    ∃ pk vk auth π, adGenerate P D cs keys.1 T chunks = some (pk, vk) ∧
      adSign A P x keys.2.2 labels = some auth ∧
      adForgeAny pk x auth dauth d2 d3 = some π ∧
      AdEquations P vk π ∧ vk.Ain.length = cs.primaryInputSize ∧
      AdAuthentic A vk π keys.2.2 labels := by
  intro keys
  obtain ⟨cs', hcs'⟩ := C16_swap_defined cs hr
  obtain ⟨hp', hw', hr'⟩ := R1CS.swap_shape cs cs' hcs'
  obtain ⟨-, hni, hnv, hnc⟩ := C16_swap_preserves cs cs' hcs'
  have hm' : cs'.numConstraints + cs'.numInputs + 1 ≤ D.m := by rw [hnc, hni]; exact hm
  obtain ⟨qi, q, -, hq, -, n1, n2, n3, n4, lA, lB, lC, eH, eZ, -, -, -⟩ :=
    R1CS.qapEval_spec hD cs' (hr' hr) hm' T.t
  set nv := cs'.numVariables with hnv0
  have hni0 : cs'.numInputs = cs.primaryInputSize := by rw [hni]; rfl
  set ni := cs.primaryInputSize with hni1
  have hle : ni ≤ nv := by
    have : ni = cs'.primaryInputSize := by rw [hp']
    simp [this, hnv0, R1CS.numVariables]
  have hgen := adGenerate_eq P D cs cs' ⟨i • P.one1⟩ T chunks hcs' q hq nv ni n1 (by rw [n3, hni0])
    hle lA lB lC
  have hs : adSign A P x keys.2.2 labels
      = some (List.zipWith (adSignOne A P keys.2.2) x labels) := by rw [adSign, if_pos (by omega)]
  set auth := List.zipWith (adSignOne A P keys.2.2) x labels with hauth
  have la : auth.length = ni := by simp [hauth, hx, hl]
  have gZ : ∀ l : List F, l.length = nv + 1 → (l ++ [q.Zt]).getD (nv + 1) 0 = q.Zt := by
    intro l hl
    rw [List.getD_append_right _ _ _ _ (by omega), hl]; simp
  have gl : ∀ (l : List F) i, l.length = nv + 1 → i < nv + 1 →
      (l ++ [q.Zt]).getD i 0 = l.getD i 0 := by
    intro l i hl hi
    rw [List.getD_append _ _ _ _ (by omega)]
  have getQ : ∀ {H1 H2 : Type} [AddCommGroup H1] [Module F H1] [AddCommGroup H2] [Module F H2]
      (g1 : H1) (g2 : H2) (c1 c2 : F) (v : List F) (i : Nat), v.length = nv + 2 → i < nv + 2 →
      (⟨nv + 2, (List.range (nv + 2)).flatMap (kcEntry g1 g2 c1 c2 v)⟩ : KcVec (H1 × H2)).get i
        = ((c1 * v.getD i 0) • g1, (c2 * v.getD i 0) • g2) := by
    intro H1 H2 _ _ _ _ g1 g2 c1 c2 v i hv hi
    have := kcBatch_get g1 g2 c1 c2 v i (by omega)
    rw [hv] at this
    exact this
  have lA' : (q.At ++ [q.Zt]).length = nv + 2 := by simp [lA]
  have lB' : (q.Bt ++ [q.Zt]).length = nv + 2 := by simp [lB]
  have lC' : (q.Ct ++ [q.Zt]).length = nv + 2 := by simp [lC]
  obtain ⟨pk, vk, hg, c0, cA, cB, cC, cH, cK2, cK3, cI, e1, e2, e3, e4, e5, e6, e7, e8, e9⟩ :
      ∃ pk vk, adGenerate P D cs keys.1 T chunks = some (pk, vk) ∧ pk.cs = cs' ∧
        (∀ j < nv + 2, pk.aQuery.get j = ((T.rA * (q.At ++ [q.Zt]).getD j 0) • P.one1,
          (T.rA * T.alphaA * (q.At ++ [q.Zt]).getD j 0) • P.one1)) ∧
        pk.bQuery.get (nv + 1) = ((T.rB * q.Zt) • P.one2, (T.rB * T.alphaB * q.Zt) • P.one1) ∧
        pk.cQuery.get (nv + 1) = ((T.rA * T.rB * q.Zt) • P.one1,
          (T.rA * T.rB * T.alphaC * q.Zt) • P.one1) ∧
        pk.hQuery[0]? = some P.one1 ∧
        pk.kQuery[nv + 2]? = some ((T.beta * T.rB * q.Zt) • P.one1) ∧
        pk.kQuery[nv + 3]? = some ((T.beta * (T.rA * T.rB) * q.Zt) • P.one1) ∧
        pk.rAiZG1 = (T.rA * q.Zt) • i • P.one1 ∧
        vk.alphaAG2 = T.alphaA • P.one2 ∧ vk.alphaBG1 = T.alphaB • P.one1 ∧
        vk.alphaCG2 = T.alphaC • P.one2 ∧ vk.gammaG2 = T.gamma • P.one2 ∧
        vk.gammaBetaG1 = (T.gamma * T.beta) • P.one1 ∧
        vk.gammaBetaG2 = (T.gamma * T.beta) • P.one2 ∧
        vk.rCZG2 = (T.rA * T.rB * q.Zt) • P.one2 ∧
        vk.A0 = (T.rA * q.At.getD 0 0) • P.one1 ∧
        vk.Ain = (List.range ni).map (fun k => (T.rA * q.At.getD (1 + k) 0) • P.one1) := by
    refine ⟨_, _, hgen, rfl, ?_, ?_, ?_, ?_, ?_, ?_, rfl, rfl, rfl, rfl, rfl, rfl, rfl, rfl, rfl, rfl⟩
    · intro j hj
      exact getQ _ _ _ _ _ j lA' hj
    · rw [getQ _ _ _ _ _ _ lB' (by omega), gZ _ lB]
    · rw [getQ _ _ _ _ _ _ lC' (by omega), gZ _ lC]
    · simp only [eH, batchExp, powersFrom, List.map_cons, List.getElem?_cons_zero, one_smul]
    · simp only [batchExp, List.map_append, List.map_cons, List.map_nil]
      rw [List.getElem?_append_right (by simp)]
      simp
    · simp only [batchExp, List.map_append, List.map_cons, List.map_nil]
      rw [List.getElem?_append_right (by simp)]
      simp
  have hmu := adMuA_eq pk ni auth dauth P.one1 (fun k => T.rA * q.At.getD (1 + k) 0) (by
    intro k hk
    rw [cA _ (by omega), gl _ _ lA (by omega), Nat.add_comm k 1]) la.ge
  have hsum : ((List.range ni).map fun k => x.getD k 0 • pk.aQuery.get (k + 1)).sum
      = ((T.rA * ∑ k ∈ Finset.range ni, x.getD k 0 * q.At.getD (1 + k) 0) • P.one1,
         (T.rA * T.alphaA * ∑ k ∈ Finset.range ni, x.getD k 0 * q.At.getD (1 + k) 0) • P.one1) := by
    have : ((List.range ni).map fun k => x.getD k 0 • pk.aQuery.get (k + 1))
        = (List.range ni).map fun k => ((x.getD k 0 * (T.rA * q.At.getD (1 + k) 0)) • P.one1,
          (x.getD k 0 * (T.rA * T.alphaA * q.At.getD (1 + k) 0)) • P.one1) := by
      refine List.map_congr_left fun k hk => ?_
      have := List.mem_range.1 hk
      rw [cA _ (by omega), gl _ _ lA (by omega), Nat.add_comm k 1]
      simp only [Prod.smul_mk, smul_smul]
    have hsum : ∀ (f : Nat → G1 × G1) (n : Nat),
        ((List.range n).map f).sum = ∑ k ∈ Finset.range n, f k := by
      intro f n
      induction n with
      | zero => simp
      | succ n ih => simp [List.range_succ, Finset.sum_range_succ, ih]
    rw [this, hsum]
    refine Prod.ext ?_ ?_
    · simp only [Prod.fst_sum, ← Finset.sum_smul, Finset.mul_sum]
      exact congrArg (· • P.one1) (Finset.sum_congr rfl fun k _ => by ring)
    · simp only [Prod.snd_sum, ← Finset.sum_smul, Finset.mul_sum]
      exact congrArg (· • P.one1) (Finset.sum_congr rfl fun k _ => by ring)
  obtain ⟨π, hf, f1, f2, f3, f4, f5, f6, f7⟩ : ∃ π, adForgeAny pk x auth dauth d2 d3 = some π ∧
      π.gA = 0 - pk.aQuery.get 0 - (dauth • pk.aQuery.get (nv + 1)
        + ((List.range ni).map fun k => x.getD k 0 • pk.aQuery.get (k + 1)).sum) ∧
      π.gB = d2 • pk.bQuery.get (nv + 1) ∧ π.gC = d3 • pk.cQuery.get (nv + 1) ∧
      π.gH = 0 - d3 • P.one1 ∧
      π.gK = d2 • (T.beta * T.rB * q.Zt) • P.one1 + d3 • (T.beta * (T.rA * T.rB) * q.Zt) • P.one1 ∧
      π.gAau = dauth • pk.aQuery.get (nv + 1)
        + ((List.range ni).map fun k => x.getD k 0 • pk.aQuery.get (k + 1)).sum ∧
      π.muA = dauth • pk.rAiZG1 + (∑ k ∈ Finset.range ni,
        (auth.map (·.mu)).getD k 0 * (T.rA * q.At.getD (1 + k) 0)) • P.one1 := by
    refine ⟨⟨_, _, _, _, _, _, _⟩, ?_, rfl, rfl, rfl, rfl, rfl, rfl, rfl⟩
    simp only [adForgeAny, c0, ← hnv0, cH, cK2, cK3, hx, hmu, Option.bind_eq_bind, Option.bind_some,
      Option.pure_def]
  rw [hsum, cA (nv + 1) (by omega), gZ _ lA] at f1 f6
  rw [cA 0 (by omega), gl _ _ lA (by omega)] at f1
  set sx := ∑ k ∈ Finset.range ni, x.getD k 0 * q.At.getD (1 + k) 0 with hsx
  rw [cB] at f2
  rw [cC] at f3
  refine ⟨pk, vk, auth, π, hg, hs, hf, ?_, by rw [e9]; simp, ?_⟩
  · have one2 : ∀ g : G1, P.e g P.one2 = P.e g ((1 : F) • P.one2) := by intro g; rw [one_smul]
    refine ⟨fun g _ => hwf1 g, hwf2 _, ?_, ?_, ?_, ?_, ?_, ?_⟩
    all_goals
      simp only [e1, e2, e3, e4, e5, e6, e7, e8, f1, f2, f3, f4, f5, f6, Prod.fst_add, Prod.snd_add,
        Prod.fst_sub, Prod.snd_sub, Prod.smul_mk, Prod.neg_mk, smul_smul, zero_sub,
        ← neg_smul, ← add_smul, ← sub_smul, one2, pair_smul]
      congr 1
      ring
  · refine adAuthentic_of A P skp S i ni vk T.rA q.Zt dauth (fun k => q.At.getD (1 + k) 0) e9 x labels
      hx hl π ?_ ?_
    · rw [f6]
      simp only [Prod.smul_mk, Prod.fst_add, smul_smul, ← add_smul]
      exact congrArg (· • P.one1) (by ring)
    · rw [f7, cI]
      simp only [smul_smul, ← add_smul]
      refine congrArg (· • P.one1) ?_
      have : ∑ k ∈ Finset.range ni, (auth.map (·.mu)).getD k 0 * (T.rA * q.At.getD (1 + k) 0)
          = T.rA * ∑ k ∈ Finset.range ni, (auth.map (·.mu)).getD k 0 * q.At.getD (1 + k) 0 := by
        rw [Finset.mul_sum]
        exact Finset.sum_congr rfl fun k _ => by ring
      rw [this]
      simp only [hauth, keys, adAuthGenerate]
      ring

/-- **C110** (any statement, verifier with the secret key): for every constraint system, satisfiable or not, and all signed
data, `adForgeAny` makes from the proving key, the data and its tags — without a witness — a proof that
the verifier accepts. -/
theorem C110_anything_accepted [DecidableEq G1] [DecidableEq GT]
    (A : AdPrimitives F G2 Label Seed SK VK Sig) (P : Pairing F G1 G2 GT) (hD : D.Lawful)
    (cs : R1CS F) (hr : cs.WellRanged) (hm : cs.numConstraints + cs.numInputs + 1 ≤ D.m)
    (T : Pghr13Trapdoor F) (chunks : Nat)
    (hwf1 : ∀ g, P.wf1 g = true) (hwf2 : ∀ g, P.wf2 g = true)
    (skp : SK) (vkp : VK) (S : Seed) (i : F)
    (x : List F) (hx : x.length = cs.primaryInputSize) (labels : List Label)
    (hl : labels.length = cs.primaryInputSize) (dauth d2 d3 : F) :
    let keys := adAuthGenerate P skp vkp S i
    ∃ pk vk auth π, adGenerate P D cs keys.1 T chunks = some (pk, vk) ∧
      adSign A P x keys.2.2 labels = some auth ∧
      adForgeAny pk x auth dauth d2 d3 = some π ∧
      adVerifierSym A P vk π keys.2.2 labels = some true := by
  intro keys
  obtain ⟨pk, vk, auth, π, hg, hs, hpr, heq, hAin, hau⟩ := adForgedAny A P hD cs hr hm T chunks hwf1
    hwf2 skp vkp S i x hx labels hl dauth d2 d3
  refine ⟨pk, vk, auth, π, hg, hs, hpr, ?_⟩
  obtain ⟨b, hb, hi⟩ := adVerifierSym_eq A P vk π keys.2.2 labels (by omega)
  rw [hb, hi.2 ⟨heq, hau⟩]

/-- a proof that satisfies the equations of the verifiers and the authentication equation is
accepted with the public key, when the number of inputs is even -/
theorem adPublic_of_equations [DecidableEq GT]
    (A : AdPrimitives F G2 Label Seed SK VK Sig) (P : Pairing F G1 G2 GT) (gtDefault : Option GT)
    (skp : SK) (vkp : VK) (hA : A.Signs skp vkp) (S : Seed) (i : F) (n : Nat) (heven : n % 2 = 0)
    (x : List F) (labels : List Label) (hl : labels.length = n)
    (vk : AdVK G1 G2) (hAin : vk.Ain.length = n) (auth : List (AdAuthData F G2 Sig))
    (hs : adSign A P x (adAuthGenerate P skp vkp S i).2.2 labels = some auth) (π : AdProof G1 G2)
    (heq : AdEquations P vk π) (hau : AdAuthentic A vk π (adAuthGenerate P skp vkp S i).2.2 labels) :
    adVerifierPub A P gtDefault vk auth π (adAuthGenerate P skp vkp S i).2.1 labels
      = some true := by
  obtain ⟨hb, hL⟩ := adSign_batch A P skp vkp hA S i x labels auth hs
  have la : auth.length = n := by
    have := congrArg List.length hL
    simpa [hl] using this
  obtain ⟨b, hv, hi⟩ := adVerifierPub_eq A P gtDefault vk auth π (adAuthGenerate P skp vkp S i).2.1
    labels (by omega) (by omega)
  rw [hv, hi.2 ⟨heq, hb, ?_⟩]
  rw [la, heven, hL, hau]
  simp only [Nat.zero_ne_one, if_false, Option.map_some, zero_add, List.drop_zero, pairSum_labels,
    adAuthGenerate, map_add, LinearMap.add_apply, map_smul, LinearMap.smul_apply, zero_sub,
    map_neg]
  refine congrArg some ?_
  abel

/-- **C110** (any statement, verifier with the public key): the same, when the number of inputs is even
(with an odd number this verifier rejects honest proofs as well, C86). -/
theorem C110_anything_accepted_public [DecidableEq GT]
    (A : AdPrimitives F G2 Label Seed SK VK Sig) (P : Pairing F G1 G2 GT) (gtDefault : Option GT)
    (hD : D.Lawful)
    (cs : R1CS F) (hr : cs.WellRanged) (hm : cs.numConstraints + cs.numInputs + 1 ≤ D.m)
    (T : Pghr13Trapdoor F) (chunks : Nat)
    (hwf1 : ∀ g, P.wf1 g = true) (hwf2 : ∀ g, P.wf2 g = true)
    (skp : SK) (vkp : VK) (hA : A.Signs skp vkp) (S : Seed) (i : F)
    (x : List F) (hx : x.length = cs.primaryInputSize) (heven : cs.primaryInputSize % 2 = 0)
    (labels : List Label) (hl : labels.length = cs.primaryInputSize) (dauth d2 d3 : F) :
    let keys := adAuthGenerate P skp vkp S i
    ∃ pk vk auth π, adGenerate P D cs keys.1 T chunks = some (pk, vk) ∧
      adSign A P x keys.2.2 labels = some auth ∧
      adForgeAny pk x auth dauth d2 d3 = some π ∧
      adVerifierPub A P gtDefault vk auth π keys.2.1 labels = some true := by
  intro keys
  obtain ⟨pk, vk, auth, π, hg, hs, hpr, heq, hAin, hau⟩ := adForgedAny A P hD cs hr hm T chunks hwf1
    hwf2 skp vkp S i x hx labels hl dauth d2 d3
  exact ⟨pk, vk, auth, π, hg, hs, hpr, adPublic_of_equations A P gtDefault skp vkp hA S i _ heven x
    labels hl vk hAin auth hs π heq hau⟩

/-- **C110** (other data, verifier with the secret key): let `x` be any data, signed honestly. With
the tags of `x`, the proving key and any satisfying assignment `(p, w)` of the constraint system, `adForge` makes a
proof that the verifier accepts for the labels of `x`. Nothing relates `x` to `p`. -/
theorem C110_other_data_accepted [DecidableEq G1] [DecidableEq GT]
    (A : AdPrimitives F G2 Label Seed SK VK Sig) (P : Pairing F G1 G2 GT) (hD : D.Lawful)
    (cs : R1CS F) (hr : cs.WellRanged) (hm : cs.numConstraints + cs.numInputs + 1 ≤ D.m)
    (T : Pghr13Trapdoor F) (chunks : Nat)
    (hwf1 : ∀ g, P.wf1 g = true) (hwf2 : ∀ g, P.wf2 g = true)
    (skp : SK) (vkp : VK) (S : Seed) (i : F)
    (x p w : List F) (hx : x.length = cs.primaryInputSize)
    (hp : p.length = cs.primaryInputSize) (hw : w.length = cs.auxiliaryInputSize)
    (hsat : cs.isSatisfied p w = some true) (labels : List Label)
    (hl : labels.length = cs.primaryInputSize) (d1 d2 d3 dauth : F) :
    let keys := adAuthGenerate P skp vkp S i
    ∃ pk vk auth π, adGenerate P D cs keys.1 T chunks = some (pk, vk) ∧
      adSign A P x keys.2.2 labels = some auth ∧
      adForge D pk x p w auth d1 d2 d3 dauth = some π ∧
      adVerifierSym A P vk π keys.2.2 labels = some true := by
  intro keys
  obtain ⟨pk, vk, auth, π, hg, hs, hpr, heq, hAin, hau⟩ := adForged A P hD cs hr hm T chunks hwf1 hwf2
    skp vkp S i x p w hx hp hw hsat labels hl d1 d2 d3 dauth
  refine ⟨pk, vk, auth, π, hg, hs, hpr, ?_⟩
  obtain ⟨b, hb, hi⟩ := adVerifierSym_eq A P vk π keys.2.2 labels (by omega)
  rw [hb, hi.2 ⟨heq, hau⟩]

/-- **C110** (other data, verifier with the public key): the same, when the number of inputs is even
(with an odd number this verifier rejects honest proofs as well, C86). -/
theorem C110_other_data_accepted_public [DecidableEq GT]
    (A : AdPrimitives F G2 Label Seed SK VK Sig) (P : Pairing F G1 G2 GT) (gtDefault : Option GT)
    (hD : D.Lawful)
    (cs : R1CS F) (hr : cs.WellRanged) (hm : cs.numConstraints + cs.numInputs + 1 ≤ D.m)
    (T : Pghr13Trapdoor F) (chunks : Nat)
    (hwf1 : ∀ g, P.wf1 g = true) (hwf2 : ∀ g, P.wf2 g = true)
    (skp : SK) (vkp : VK) (hA : A.Signs skp vkp) (S : Seed) (i : F)
    (x p w : List F) (hx : x.length = cs.primaryInputSize)
    (hp : p.length = cs.primaryInputSize) (hw : w.length = cs.auxiliaryInputSize)
    (heven : cs.primaryInputSize % 2 = 0)
    (hsat : cs.isSatisfied p w = some true) (labels : List Label)
    (hl : labels.length = cs.primaryInputSize) (d1 d2 d3 dauth : F) :
    let keys := adAuthGenerate P skp vkp S i
    ∃ pk vk auth π, adGenerate P D cs keys.1 T chunks = some (pk, vk) ∧
      adSign A P x keys.2.2 labels = some auth ∧
      adForge D pk x p w auth d1 d2 d3 dauth = some π ∧
      adVerifierPub A P gtDefault vk auth π keys.2.1 labels = some true := by
  intro keys
  obtain ⟨pk, vk, auth, π, hg, hs, hpr, heq, hAin, hau⟩ := adForged A P hD cs hr hm T chunks hwf1 hwf2
    skp vkp S i x p w hx hp hw hsat labels hl d1 d2 d3 dauth
  exact ⟨pk, vk, auth, π, hg, hs, hpr, adPublic_of_equations A P gtDefault skp vkp hA S i _ heven x
    labels hl vk hAin auth hs π heq hau⟩

/-- `0 · 0 = 1`, with two public inputs: no assignment satisfies it -/
def exNever : R1CS ℚ := ⟨2, 0, [⟨[], [], [⟨0, 1⟩]⟩]⟩

theorem exNever_ok : exNever.WellRanged := by
  simp [R1CS.WellRanged, exNever, R1CS.numVariables, IndicesLE]

/-- **C110** (a false statement accepted): there is a constraint system that no assignment satisfies, and
for every data, all keys and all randomness there is a proof made from the proving key and the tags
of the data that both verifiers accept. -/
theorem C110_false_statement_accepted :
    (∀ p w : List ℚ, p.length = exNever.primaryInputSize → w.length = exNever.auxiliaryInputSize →
      exNever.isSatisfied p w ≠ some true) ∧
    ∀ (T : Pghr13Trapdoor ℚ) (S i dauth d2 d3 x x' : ℚ) (l l' : Nat),
      let keys := adAuthGenerate exPairing () () S i
      let D := EvalDomain.ofPoints 4 (fun i => (i : ℚ) + 1) 10
      ∃ pk vk auth π, adGenerate exPairing D exNever keys.1 T 1 = some (pk, vk) ∧
        adSign (exAd ℚ) exPairing [x, x'] keys.2.2 [l, l'] = some auth ∧
        adForgeAny pk [x, x'] auth dauth d2 d3 = some π ∧
        adVerifierSym (exAd ℚ) exPairing vk π keys.2.2 [l, l'] = some true ∧
        adVerifierPub (exAd ℚ) exPairing none vk auth π keys.2.1 [l, l'] = some true := by
  refine ⟨?_, ?_⟩
  · intro p w hp hw h
    have := (C16_isSatisfied_iff exNever exNever_ok p w (by rw [hp, hw]; rfl)).1.1 h
    have h2 := this ⟨[], [], [⟨0, 1⟩]⟩ (by simp [exNever])
    simp [formalValue, envOf] at h2
  · intro T S i dauth d2 d3 x x' l l' keys D
    obtain ⟨pk, vk, auth, π, h1, h2, h3, h4⟩ := C110_anything_accepted (exAd ℚ) exPairing exDom4
      exNever exNever_ok (by decide) T 1 (fun _ => rfl) (fun _ => rfl) () () S i [x, x'] rfl [l, l'] rfl
      dauth d2 d3
    obtain ⟨pk', vk', auth', π', h1', h2', h3', h4'⟩ := C110_anything_accepted_public (exAd ℚ)
      exPairing none exDom4 exNever exNever_ok (by decide) T 1 (fun _ => rfl) (fun _ => rfl) () ()
      (exAd_signs ℚ) S i [x, x'] rfl rfl [l, l'] rfl dauth d2 d3
    rw [h1] at h1'
    simp only [Option.some.injEq, Prod.mk.injEq] at h1'
    obtain ⟨rfl, rfl⟩ := h1'
    rw [h2] at h2'
    cases h2'
    rw [h3] at h3'
    cases h3'
    exact ⟨pk, vk, auth, π, h1, h2, h3, h4, h4'⟩

/-- `x₃ · x₃ = x₁ + x₂`: the data `3, 7` was signed, the proof is about `3, 6` -/
example (T : Pghr13Trapdoor ℚ) (S i d1 d2 d3 d : ℚ) := C110_other_data_accepted (exAd ℚ) exPairing
  exDom4 exSum exSum_ok (by decide) T 2 (fun _ => rfl) (fun _ => rfl) () () S i [3, 7] [3, 6] [3] rfl rfl
  rfl (by decide +kernel) [8, 9] rfl d1 d2 d3 d

example (T : Pghr13Trapdoor ℚ) (S i d1 d2 d3 d : ℚ) := C110_other_data_accepted_public (exAd ℚ)
  exPairing none exDom4 exSum exSum_ok (by decide) T 2 (fun _ => rfl) (fun _ => rfl) () ()
  (exAd_signs ℚ) S i [3, 7] [3, 6] [3] rfl rfl rfl rfl (by decide +kernel) [8, 9] rfl d1 d2 d3 d

end Crypto3Zk
