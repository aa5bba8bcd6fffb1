import Verif.Spec.Groth16MPC
import Verif.Lemmas.PowersOfTau
import Verif.Lemmas.PermutationArg

/-!
# Lemmas about the second phase of the Groth16 ceremony
-/

set_option linter.unusedSectionVars false

namespace Crypto3Zk

variable {F G1 G2 GT : Type} [Field F] [DecidableEq F] [AddCommGroup G1] [Module F G1] [AddCommGroup G2]
  [Module F G2] [AddCommGroup GT] [Module F GT]

theorem addMapG_eq {G : Type} [AddCommGroup G] [Module F G] (u : List F) (c : F) (g : G) (m : List (Nat × F))
    (v : F) (hv : evalMap u m = some v) (x : G) :
    addMapG (u.map fun y => (c * y) • g) m x = some (x + (c * v) • g) := by
  have key : ∀ (m : List (Nat × F)) (a v : F) (x : G),
      m.foldlM (fun acc el => u[el.1]?.map fun ui => acc + ui * el.2) a = some v →
      m.foldlM (fun (acc : G) el => (u.map fun y => (c * y) • g)[el.1]?.map fun ui => acc + el.2 • ui) x =
        some (x + (c * (v - a)) • g) := by
    intro m
    induction m with
    | nil =>
      intro a v x h
      simp only [List.foldlM_nil, Option.pure_def, Option.some.injEq] at h
      subst h; simp
    | cons e m ih =>
      intro a v x h
      rw [List.foldlM_cons] at h ⊢
      simp only [Option.bind_eq_bind] at h ⊢
      rw [List.getElem?_map]
      cases hu : u[e.1]? with
      | none => rw [hu] at h; simp at h
      | some ui =>
        rw [hu] at h
        simp only [Option.map_some, Option.bind_some] at h ⊢
        rw [ih _ _ _ h]
        congr 1
        rw [add_assoc, smul_smul, ← add_smul]
        congr 2
        ring
  have := key m 0 v x hv
  rwa [sub_zero] at this

theorem addMapG_eq_one {G : Type} [AddCommGroup G] [Module F G] (u : List F) (g : G) (m : List (Nat × F))
    (v : F) (hv : evalMap u m = some v) (x : G) :
    addMapG (u.map fun y => y • g) m x = some (x + v • g) := by
  have := addMapG_eq u 1 g m v hv x
  simpa using this

/-- the key pair of the exponents of a QAP at `τ` -/
def mpcKeypair (P : Pairing F G1 G2 GT) (q : QapEval F) (cs : R1CS F) (k : TauKey F) (m : Nat) (delta : F) :
    Groth16PK F G1 G2 × Groth16VK G1 G2 GT :=
  ({ alphaG1 := k.alpha • P.one1
     betaG1 := k.beta • P.one1
     betaG2 := k.beta • P.one2
     deltaG1 := delta • P.one1
     deltaG2 := delta • P.one2
     aQuery := batchExp P.one1 q.At
     bQuery := ⟨q.Bt.length, (q.Bt.map fun b => (b • P.one2, b • P.one1)).zipIdx.map fun (x, i) => (i, x)⟩
     hQuery := (List.range (m - 1)).map fun i => (delta⁻¹ * (k.tau ^ i * q.Zt)) • P.one1
     lQuery := (List.range (q.numVariables - q.numInputs)).map fun i =>
      (delta⁻¹ * kVal q k.alpha k.beta (q.numInputs + 1 + i)) • P.one1
     cs },
   { alphaBeta := P.e (k.alpha • P.one1) (k.beta • P.one2)
     gammaG2 := P.one2
     deltaG2 := delta • P.one2
     gammaABC := ⟨kVal q k.alpha k.beta 0 • P.one1,
      (List.range q.numInputs).map fun i => kVal q k.alpha k.beta (1 + i) • P.one1⟩ })

theorem mpcInitial_eq (P : Pairing F G1 G2 GT) {D : EvalDomain F} (hD : D.Lawful) (cs cs' : R1CS F)
    (hs : cs.swapABIfBeneficial = some cs') (k : TauKey F) (qi : QapInstance F) (q : QapEval F)
    (hqi : cs'.qapInstance D = some qi) (hq : qi.evalAt D k.tau = some q) (hdeg : q.degree = D.m)
    (hle : q.numInputs ≤ q.numVariables) :
    mpcInitial P D cs (tauResultOf P D D.m k) = some (mpcKeypair P q cs' k D.m 1) := by
  simp only [QapInstance.evalAt, Option.bind_eq_bind, Option.bind_eq_some_iff, Option.pure_def,
    Option.some.injEq] at hq
  obtain ⟨At, hAt, Bt, hBt, Ct, hCt, rfl⟩ := hq
  simp only at hdeg hle
  obtain ⟨lA, eA⟩ := mapM_range_some _ _ _ hAt
  obtain ⟨lB, eB⟩ := mapM_range_some _ _ _ hBt
  obtain ⟨lC, eC⟩ := mapM_range_some _ _ _ hCt
  have get : ∀ (ms : List (List (Nat × F))) (l : List F) (i : Nat), l.length = qi.numVariables + 1 →
      i < qi.numVariables + 1 → (ms[i]?.bind fun m => evalMap (D.lagrange k.tau) m) = l[i]? →
      ∃ m, ms[i]? = some m ∧ evalMap (D.lagrange k.tau) m = some (l.getD i 0) := by
    intro ms l i hl hi h
    rw [List.getElem?_eq_getElem (l := l) (by omega)] at h
    obtain ⟨m, hm, h⟩ := Option.bind_eq_some_iff.1 h
    exact ⟨m, hm, by rw [h, List.getD_eq_getElem _ _ (by omega)]⟩
  set q : QapEval F := ⟨qi.numVariables, qi.degree, qi.numInputs, k.tau, At, Bt, Ct,
    powersFrom k.tau 1 (qi.degree + 1), D.vanishing k.tau⟩ with hq
  have hk : (List.range (qi.numVariables + 1)).mapM (mpcEntry qi (tauResultOf P D D.m k)) =
      some ((List.range (qi.numVariables + 1)).map fun i => kVal q k.alpha k.beta i • P.one1) := by
    apply mapM_eq_some_map
    intro i hi
    rw [List.mem_range] at hi
    obtain ⟨a, ha, ea⟩ := get _ _ i lA hi (eA i hi)
    obtain ⟨b, hb, eb⟩ := get _ _ i lB hi (eB i hi)
    obtain ⟨c, hc, ec⟩ := get _ _ i lC hi (eC i hi)
    simp only [mpcEntry, ha, hb, hc, tauResultOf, Option.bind_eq_bind, Option.bind_some,
      addMapG_eq _ _ _ _ _ ea, addMapG_eq _ _ _ _ _ eb, addMapG_eq_one _ _ _ _ ec, Option.some.injEq, kVal, hq]
    rw [zero_add, ← add_smul, ← add_smul]
  have ha : (List.range (qi.numVariables + 1)).mapM
      (fun i => qi.A[i]?.bind (addMapG (tauResultOf P D D.m k).coeffsG1 · 0)) = some (batchExp P.one1 At) := by
    have : batchExp P.one1 At = (List.range (qi.numVariables + 1)).map fun i => At.getD i 0 • P.one1 := by
      apply List.ext_getElem
      · simp [batchExp, lA]
      · intro i h1 h2
        have : i < At.length := by simpa [batchExp] using h1
        simp [batchExp, this]
    rw [this]
    apply mapM_eq_some_map
    intro i hi
    rw [List.mem_range] at hi
    obtain ⟨a, ha, ea⟩ := get _ _ i lA hi (eA i hi)
    simp only [ha, Option.bind_some, tauResultOf, addMapG_eq_one _ _ _ _ ea, zero_add]
  have hb : (List.range (qi.numVariables + 1)).mapM (mpcEntryB qi (tauResultOf P D D.m k)) =
      some (Bt.map fun b => (b • P.one2, b • P.one1)) := by
    have : (Bt.map fun b => (b • P.one2, b • P.one1)) =
        (List.range (qi.numVariables + 1)).map fun i => (Bt.getD i 0 • P.one2, Bt.getD i 0 • P.one1) := by
      apply List.ext_getElem
      · simp [lB]
      · intro i h1 h2
        have : i < Bt.length := by simpa using h1
        simp [this]
    rw [this]
    apply mapM_eq_some_map
    intro i hi
    rw [List.mem_range] at hi
    obtain ⟨b, hb, eb⟩ := get _ _ i lB hi (eB i hi)
    simp only [mpcEntryB, hb, Option.bind_some, tauResultOf, addMapG_eq_one _ _ _ _ eb, zero_add,
      Option.bind_eq_bind, Option.pure_def]
  have hl := hD.length_lagrange k.tau
  have hguard : ((tauResultOf P D D.m k).coeffsG1.length = D.m ∧ (tauResultOf P D D.m k).coeffsG2.length = D.m ∧
      (tauResultOf P D D.m k).alphaCoeffsG1.length = D.m ∧ (tauResultOf P D D.m k).betaCoeffsG1.length = D.m ∧
      (tauResultOf P D D.m k).h.length = D.m - 1) := by
    simp [tauResultOf, hl]
  have hn : qi.numInputs ≤ qi.numVariables := hle
  simp only [mpcInitial, hs, hqi, Option.bind_eq_bind, Option.bind_some, hguard, and_self, guard, if_true, hk, ha, hb]
  rw [slice_eq _ _ _ (by omega) (by simp; omega), slice_all _ _ (by simp [tauResultOf]; rw [← hdeg]),
    slice_eq _ _ _ (by simp; omega) le_rfl]
  simp only [List.getElem?_map, List.getElem?_range (show 0 < qi.numVariables + 1 by omega), Option.map_some,
    Option.bind_some, Option.pure_def, Option.some.injEq, mpcKeypair, Prod.mk.injEq, Groth16PK.mk.injEq,
    Groth16VK.mk.injEq, AccVec.mk.injEq, KcVec.mk.injEq, one_smul, inv_one, one_mul]
  refine ⟨⟨rfl, rfl, rfl, trivial, trivial, rfl, ⟨by simp [hq], rfl⟩, rfl, ?_, trivial⟩, rfl, trivial, trivial, trivial, ?_⟩
  · apply List.ext_getElem
    · simp [hq]
    · intro i h1 h2; simp [hq]
  · apply List.ext_getElem
    · simp [hq]; omega
    · intro i h1 h2; simp [hq, add_comm]

theorem mpcTransform_eq (P : Pairing F G1 G2 GT) (q : QapEval F) (cs : R1CS F) (k : TauKey F) (m : Nat)
    (d delta : F) (h : delta ≠ 0) :
    mpcTransform (mpcKeypair P q cs k m d) delta = some (mpcKeypair P q cs k m (delta * d)) := by
  simp only [mpcTransform, if_neg h, mpcKeypair, List.map_map, Function.comp_def, smul_smul, mul_inv, mul_assoc]

/-! ## sparse vectors -/

theorem kcMultiexp_get {G : Type} [AddCommGroup G] [Module F G] (vec : KcVec G)
    (hs : vec.entries.Pairwise fun a b => a.1 < b.1) (scalars : List F) (hlen : scalars.length ≤ vec.domainSize) :
    kcMultiexp vec 0 scalars.length scalars scalars.length =
      some (∑ i ∈ Finset.range scalars.length, scalars.getD i 0 • vec.get i) := by
  rw [kcMultiexp_spec vec hs 0 scalars.length scalars scalars.length le_rfl hlen (by omega)]
  congr 1
  simp only [KcVec.get]
  generalize vec.entries = es at hs
  induction es with
  | nil => simp
  | cons e es ih =>
    rw [List.pairwise_cons] at hs
    have hnot : es.lookup e.1 = none := by
      rw [List.lookup_eq_none_iff]
      intro p hp
      have := hs.1 p hp
      simp; omega
    have hsplit : ∀ i, (List.lookup i (e :: es)).getD 0 =
        (if i = e.1 then e.2 else 0) + (List.lookup i es).getD 0 := by
      intro i
      obtain ⟨j, g⟩ := e
      rw [List.lookup_cons]
      by_cases hij : i = j
      · subst hij
        simp only at hnot
        rw [hnot]
        simp
      · simp [hij, beq_eq_false_iff_ne.2 hij]
    simp only [hsplit, smul_add, Finset.sum_add_distrib]
    rw [← ih hs.2]
    have h1 : ∑ i ∈ Finset.range scalars.length, scalars.getD i 0 • (if i = e.1 then e.2 else 0) =
        if e.1 < scalars.length then scalars.getD e.1 0 • e.2 else 0 := by
      simp only [smul_ite, smul_zero, Finset.sum_ite_eq', Finset.mem_range]
    rw [h1, List.filter_cons]
    by_cases he : e.1 < scalars.length
    · simp [he]
    · simp [he]

theorem groth16Prove_congr (D : EvalDomain F) (a b : Groth16PK F G1 G2) (h : SameProvingKey a b)
    (ha : a.bQuery.entries.Pairwise fun x y => x.1 < y.1) (hb : b.bQuery.entries.Pairwise fun x y => x.1 < y.1)
    (p w : List F) (r s : F) : groth16Prove D a p w r s = groth16Prove D b p w r s := by
  have key : ∀ (padded scalars : List F) (n : Nat), slice padded 0 n = some scalars →
      kcMultiexp a.bQuery 0 n scalars scalars.length = kcMultiexp b.bQuery 0 n scalars scalars.length := by
    intro padded scalars n hn
    have hlen : scalars.length = n := by
      unfold slice at hn
      split at hn
      · obtain rfl := Option.some.inj hn
        simp; omega
      · simp at hn
    subst hlen
    by_cases hd : scalars.length ≤ a.bQuery.domainSize
    · rw [kcMultiexp_get _ ha _ hd, kcMultiexp_get _ hb _ (by rw [← h.bQuery.1]; exact hd)]
      simp only [h.bQuery.2]
    · rw [kcMultiexp, if_neg hd, kcMultiexp, if_neg (by rw [← h.bQuery.1]; exact hd)]
  simp only [groth16Prove, h.alphaG1, h.betaG1, h.betaG2, h.deltaG1, h.deltaG2, h.aQuery, h.hQuery, h.lQuery, h.cs]
  simp only [Option.bind_eq_bind]
  congr 1; funext _
  congr 1; funext _
  congr 1; funext wit
  congr 1; funext _
  congr 1; funext _
  congr 1; funext _
  congr 1; funext _
  congr 1; funext _
  cases hsl : slice (1 :: wit.coefficientsForABCs) 0 (wit.numVariables + 1) with
  | none => rfl
  | some sc =>
    simp only [Option.bind_some, key _ _ _ hsl]

theorem zipIdx_entries_sorted {G : Type} (l : List G) :
    (l.zipIdx.map fun (x, i) => (i, x)).Pairwise fun a b => a.1 < b.1 := by
  rw [List.pairwise_map]
  have : (l.zipIdx.map Prod.snd).Pairwise (· < ·) := by
    rw [List.zipIdx_map_snd]
    exact List.pairwise_lt_range'
  exact List.pairwise_map.1 this

theorem zipIdx_entries_get {G : Type} [AddCommGroup G] (l : List G) (n i : Nat) :
    (⟨n, l.zipIdx.map fun (x, i) => (i, x)⟩ : KcVec G).get i = l.getD i 0 := by
  have key : ∀ (l : List G) (k i : Nat), ((l.zipIdx k).map fun (x, i) => (i, x)).lookup i =
      if k ≤ i then l[i - k]? else none := by
    intro l
    induction l with
    | nil => simp
    | cons a l ih =>
      intro k i
      rw [List.zipIdx_cons, List.map_cons, List.lookup_cons, ih]
      by_cases h : i = k
      · subst h; simp
      · simp only [h, beq_iff_eq, beq_eq_false_iff_ne.2 h]
        by_cases h2 : k + 1 ≤ i
        · rw [if_pos h2, if_pos (by omega)]
          have : i - k = i - (k + 1) + 1 := by omega
          rw [this, List.getElem?_cons_succ]
        · rw [if_neg h2, if_neg (by omega)]
  simp only [KcVec.get, key l 0 i, Nat.zero_le, if_true, Nat.sub_zero, List.getD_eq_getElem?_getD]

theorem lookup_none_get {G : Type} [AddCommGroup G] (v : KcVec G) (i : Nat) (h : ∀ e ∈ v.entries, e.1 ≠ i) :
    v.get i = 0 := by
  rw [KcVec.get, List.lookup_eq_none_iff.2]
  · rfl
  · intro e he
    have := h e he
    simp [Ne.symm this]

theorem KcVec.same_iff {G : Type} [AddCommGroup G] [DecidableEq G] (v w : KcVec G) :
    v.same w = true ↔ v.Same w := by
  rw [KcVec.same, decide_eq_true_iff, KcVec.Same]
  constructor
  · rintro ⟨h1, h2⟩
    refine ⟨h1, fun i => ?_⟩
    by_cases h : ∃ e ∈ v.entries ++ w.entries, e.1 = i
    · obtain ⟨e, he, rfl⟩ := h
      exact h2 e he
    · push Not at h
      rw [lookup_none_get v i fun e he => h e (by simp [he]), lookup_none_get w i fun e he => h e (by simp [he])]
  · rintro ⟨h1, h2⟩
    exact ⟨h1, fun e _ => h2 e.1⟩

end Crypto3Zk
