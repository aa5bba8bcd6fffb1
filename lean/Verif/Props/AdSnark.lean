import Verif.Lemmas.AdSnarkVerify
import Verif.Props.PGHR13
import Mathlib.Algebra.Field.ZMod
import Mathlib.Tactic.FinCases
import Mathlib.Tactic.NormNum.Prime

/-!
# C85, C86, C87: the argument on authenticated data
-/

set_option linter.unusedSectionVars false

namespace Crypto3Zk

variable {F : Type} [Field F] [DecidableEq F] {D : EvalDomain F}
variable {G1 G2 GT : Type} [AddCommGroup G1] [Module F G1] [AddCommGroup G2] [Module F G2]
  [AddCommGroup GT] [Module F GT]
variable {Label Seed SK VK Sig : Type}

/-! ## C85: authenticating data -/

/-- **C85** (meaning of the symmetric check): on lists of one length the check answers, and its
answer is `true` exactly when every tag is the pseudorandom value of its label plus the key times
the datum. -/
theorem C85_symmetric_iff (A : AdPrimitives F G2 Label Seed SK VK Sig) (data : List F)
    (auth : List (AdAuthData F G2 Sig)) (sak : AdSecKey F Seed SK) (labels : List Label)
    (h1 : data.length = labels.length) (h2 : auth.length = labels.length) :
    ∃ b, adVerifySym A data auth sak labels = some b ∧ (b = true ↔
      ∀ k (hk : k < labels.length),
        (auth[k]'(by omega)).mu = A.prf sak.S labels[k] + sak.i * data[k]'(by omega)) := by
  have hf := foldlM_and (List.range data.length) (fun res i => do
      let l ← labels[i]?
      let x ← data[i]?
      let a ← auth[i]?
      pure (res && decide (a.mu = A.prf sak.S l + sak.i * x)))
    (fun i => if h : i < labels.length then
      decide ((auth[i]'(by omega)).mu = A.prf sak.S labels[i] + sak.i * data[i]'(by omega)) else true)
    (by
      intro r i hi
      have hi' := List.mem_range.1 hi
      rw [List.getElem?_eq_getElem (by omega), List.getElem?_eq_getElem (by omega),
        List.getElem?_eq_getElem (by omega)]
      simp only [Option.bind_eq_bind, Option.bind_some, Option.pure_def]
      rw [dif_pos (by omega)]) true
  refine ⟨_, by rw [adVerifySym, if_pos ⟨h1, h2⟩]; exact hf, ?_⟩
  simp only [Bool.true_and, List.all_eq_true, List.mem_range]
  constructor
  · intro h k hk
    have := h k (by omega)
    rw [dif_pos hk] at this
    exact of_decide_eq_true this
  · intro h k hk
    rw [dif_pos (by omega)]
    exact decide_eq_true (h k (by omega))

/-- **C85** (meaning of the public check): on lists of one length the check answers, and its answer
is `true` exactly when every tag opens its `Lambda` and every signature verifies. -/
theorem C85_public_iff [DecidableEq G2] (A : AdPrimitives F G2 Label Seed SK VK Sig)
    (P : Pairing F G1 G2 GT) (data : List F)
    (auth : List (AdAuthData F G2 Sig)) (pak : AdPubKey G2 VK) (labels : List Label)
    (h1 : data.length = labels.length) (h2 : auth.length = labels.length) :
    ∃ b, adVerifyPub A P data auth pak labels = some b ∧ (b = true ↔
      ∀ k (hk : k < labels.length),
        (auth[k]'(by omega)).mu • P.one2
          = (auth[k]'(by omega)).Lambda - (data[k]'(by omega)) • pak.minusI2 ∧
        A.verify pak.vkp labels[k] (auth[k]'(by omega)).Lambda (auth[k]'(by omega)).sigma = true) := by
  have hf := foldlM_and (List.range auth.length) (fun res i => do
      let l ← labels[i]?
      let x ← data[i]?
      let a ← auth[i]?
      pure ((res && decide (a.mu • P.one2 = a.Lambda - x • pak.minusI2)) &&
        A.verify pak.vkp l a.Lambda a.sigma))
    (fun i => if h : i < labels.length then
      decide ((auth[i]'(by omega)).mu • P.one2
          = (auth[i]'(by omega)).Lambda - (data[i]'(by omega)) • pak.minusI2) &&
        A.verify pak.vkp labels[i] (auth[i]'(by omega)).Lambda (auth[i]'(by omega)).sigma else true)
    (by
      intro r i hi
      have hi' := List.mem_range.1 hi
      rw [List.getElem?_eq_getElem (by omega), List.getElem?_eq_getElem (by omega),
        List.getElem?_eq_getElem (by omega)]
      simp only [Option.bind_eq_bind, Option.bind_some, Option.pure_def]
      rw [dif_pos (by omega), Bool.and_assoc]) true
  refine ⟨_, by rw [adVerifyPub, if_pos ⟨h1, by omega⟩]; exact hf, ?_⟩
  simp only [Bool.true_and, List.all_eq_true, List.mem_range]
  constructor
  · intro h k hk
    have := h k (by omega)
    rw [dif_pos hk, Bool.and_eq_true] at this
    exact ⟨of_decide_eq_true this.1, this.2⟩
  · intro h k hk
    rw [dif_pos (by omega), Bool.and_eq_true]
    exact ⟨decide_eq_true (h k (by omega)).1, (h k (by omega)).2⟩

/-- **C85** (authenticated data verifies): for every key, all data and all labels of the same number,
signing succeeds and the result passes the symmetric and the public check. -/
theorem C85_signed_data_verifies [DecidableEq G2] (A : AdPrimitives F G2 Label Seed SK VK Sig)
    (P : Pairing F G1 G2 GT) (skp : SK) (vkp : VK) (hA : A.Signs skp vkp) (S : Seed) (i : F)
    (data : List F) (labels : List Label) (hl : labels.length = data.length) :
    let keys := adAuthGenerate P skp vkp S i
    ∃ auth, adSign A P data keys.2.2 labels = some auth ∧
      adVerifySym A data auth keys.2.2 labels = some true ∧
      adVerifyPub A P data auth keys.2.1 labels = some true := by
  intro keys
  have e : adSign A P data keys.2.2 labels
      = some (List.zipWith (adSignOne A P keys.2.2) data labels) := by rw [adSign, if_pos hl]
  set auth := List.zipWith (adSignOne A P keys.2.2) data labels with hauth
  have la : auth.length = labels.length := by simp [hauth, hl]
  refine ⟨auth, e, ?_, ?_⟩
  · obtain ⟨b, hb, hi⟩ := C85_symmetric_iff A data auth keys.2.2 labels hl.symm la
    rw [hb, hi.2]
    intro k hk
    simp [hauth, adSignOne]
  · obtain ⟨b, hb, hi⟩ := C85_public_iff A P data auth keys.2.1 labels hl.symm la
    rw [hb, hi.2]
    intro k hk
    refine ⟨?_, ?_⟩
    · simp only [hauth, List.getElem_zipWith, adSignOne, keys, adAuthGenerate]
      module
    · simp only [hauth, List.getElem_zipWith, adSignOne, keys, adAuthGenerate]
      exact hA.correct _ _

/-- **C85** (a tag authenticates one datum): with a nonzero key no authentication data is accepted
for two different vectors, neither by the symmetric nor by the public check. -/
theorem C85_binding [DecidableEq G2] (A : AdPrimitives F G2 Label Seed SK VK Sig)
    (P : Pairing F G1 G2 GT) (skp : SK) (vkp : VK) (S : Seed) (i : F) (hi : i ≠ 0)
    (hone : ∀ c : F, c • P.one2 = 0 → c = 0) (data data' : List F)
    (auth : List (AdAuthData F G2 Sig)) (labels : List Label)
    (hl : data.length = labels.length) (hl' : data'.length = labels.length)
    (ha : auth.length = labels.length) :
    let keys := adAuthGenerate P skp vkp S i
    (adVerifySym A data auth keys.2.2 labels = some true →
      adVerifySym A data' auth keys.2.2 labels = some true → data = data') ∧
    (adVerifyPub A P data auth keys.2.1 labels = some true →
      adVerifyPub A P data' auth keys.2.1 labels = some true → data = data') := by
  intro keys
  constructor
  · intro h h'
    obtain ⟨b, hb, hi1⟩ := C85_symmetric_iff A data auth keys.2.2 labels hl ha
    obtain ⟨b', hb', hi2⟩ := C85_symmetric_iff A data' auth keys.2.2 labels hl' ha
    have e1 := hi1.1 (Option.some.inj (hb.symm.trans h))
    have e2 := hi2.1 (Option.some.inj (hb'.symm.trans h'))
    refine List.ext_getElem (by omega) fun k hk hk' => ?_
    have := (e1 k (by omega)).symm.trans (e2 k (by omega))
    exact mul_left_cancel₀ hi (add_left_cancel this)
  · intro h h'
    obtain ⟨b, hb, hi1⟩ := C85_public_iff A P data auth keys.2.1 labels hl ha
    obtain ⟨b', hb', hi2⟩ := C85_public_iff A P data' auth keys.2.1 labels hl' ha
    have e1 := hi1.1 (Option.some.inj (hb.symm.trans h))
    have e2 := hi2.1 (Option.some.inj (hb'.symm.trans h'))
    refine List.ext_getElem (by omega) fun k hk hk' => ?_
    have e := (e1 k (by omega)).1.symm.trans (e2 k (by omega)).1
    have : ((data[k] - data'[k]) * i) • P.one2 = 0 := by
      simp only [keys, adAuthGenerate, zero_sub, smul_neg, sub_neg_eq_add, smul_smul,
        add_right_inj] at e
      rw [sub_mul, sub_smul, e, sub_self]
    rcases mul_eq_zero.1 (hone _ this) with h0 | h0
    · exact sub_eq_zero.1 h0
    · exact absurd h0 hi

/-- **C85** (lengths): lists of different lengths stop every one of the functions. -/
theorem C85_length_mismatch [DecidableEq G2] (A : AdPrimitives F G2 Label Seed SK VK Sig)
    (P : Pairing F G1 G2 GT) (data : List F) (auth : List (AdAuthData F G2 Sig))
    (sak : AdSecKey F Seed SK) (pak : AdPubKey G2 VK) (labels : List Label)
    (h : data.length ≠ labels.length) :
    adSign A P data sak labels = none ∧ adVerifySym A data auth sak labels = none ∧
      adVerifyPub A P data auth pak labels = none := by
  refine ⟨?_, ?_, ?_⟩
  · rw [adSign, if_neg (fun e => h e.symm)]
  · rw [adVerifySym, if_neg (fun e => h e.1)]
  · rw [adVerifyPub, if_neg (fun e => h e.1)]

/-- **C85** (a label must be used once): two data signed under one label give the secret key to
whoever sees the tags, and with it a tag for any third datum, which passes both checks. -/
theorem C85_label_reuse [DecidableEq G2] (A : AdPrimitives F G2 Label Seed SK VK Sig)
    (P : Pairing F G1 G2 GT) (skp : SK) (vkp : VK) (hA : A.Signs skp vkp) (S : Seed) (i : F)
    (x x' y : F) (hx : x ≠ x') (label : Label) :
    let keys := adAuthGenerate P skp vkp S i
    let tag := adSignOne A P keys.2.2 x label
    let tag' := adSignOne A P keys.2.2 x' label
    let key := (tag.mu - tag'.mu) / (x - x')
    let forged : AdAuthData F G2 Sig := { tag with mu := tag.mu + key * (y - x) }
    key = i ∧ adVerifySym A [y] [forged] keys.2.2 [label] = some true ∧
      adVerifyPub A P [y] [forged] keys.2.1 [label] = some true := by
  intro keys tag tag' key forged
  have hk : key = i := by
    have h0 : x - x' ≠ 0 := sub_ne_zero.2 hx
    simp only [key, tag, tag', adSignOne, keys, adAuthGenerate]
    rw [div_eq_iff h0]
    ring
  have hf : forged = adSignOne A P keys.2.2 y label := by
    simp only [forged, hk, tag, adSignOne, keys, adAuthGenerate]
    congr 1
    ring
  obtain ⟨auth, h1, h2, h3⟩ := C85_signed_data_verifies A P skp vkp hA S i [y] [label] rfl
  have : auth = [forged] := by
    have h4 : adSign A P [y] keys.2.2 [label] = some [forged] := by rw [hf]; rfl
    exact Option.some.inj (h1.symm.trans h4)
  rw [this] at h2 h3
  exact ⟨hk, h2, h3⟩

/-! ## C86: completeness -/

/-- an honest proof satisfies the equations of the verifiers and the authentication equation, and its
authenticator is what the tags allow -/
theorem adHonest (A : AdPrimitives F G2 Label Seed SK VK Sig) (P : Pairing F G1 G2 GT) (hD : D.Lawful)
    (cs : R1CS F) (hr : cs.WellRanged) (hm : cs.numConstraints + cs.numInputs + 1 ≤ D.m)
    (T : Pghr13Trapdoor F) (chunks : Nat)
    (hwf1 : ∀ g, P.wf1 g = true) (hwf2 : ∀ g, P.wf2 g = true)
    (skp : SK) (vkp : VK) (S : Seed) (i : F)
    (p w : List F) (hp : p.length = cs.primaryInputSize) (hw : w.length = cs.auxiliaryInputSize)
    (hsat : cs.isSatisfied p w = some true) (labels : List Label)
    (hl : labels.length = cs.primaryInputSize) (d1 d2 d3 dauth : F) :
    let keys := adAuthGenerate P skp vkp S i
    ∃ pk vk auth π, adGenerate P D cs keys.1 T chunks = some (pk, vk) ∧
      adSign A P p keys.2.2 labels = some auth ∧
      adProve D pk p w auth d1 d2 d3 dauth = some π ∧
      AdEquations P vk π ∧ vk.Ain.length = cs.primaryInputSize ∧
      AdAuthentic A vk π keys.2.2 labels := by
  intro keys
  obtain ⟨cs', hcs'⟩ := C16_swap_defined cs hr
  obtain ⟨a0, a, hgen⟩ := adProve_eq (Sig := Sig) P hD cs cs' hr hm T chunks hcs'
  obtain ⟨pk, vk, hg, e1, e2, e3, e4, e5, e6, e7, e8, e9, hprove⟩ := hgen i
  obtain ⟨sA, sB, sC, hd⟩ := hprove p w hp hw hsat
  obtain ⟨h, hH, hπ⟩ := hd d1 d2 d3 dauth
  have hs : adSign A P p keys.2.2 labels
      = some (List.zipWith (adSignOne A P keys.2.2) p labels) := by rw [adSign, if_pos (by omega)]
  set auth := List.zipWith (adSignOne A P keys.2.2) p labels with hauth
  have la : auth.length = cs.primaryInputSize := by simp [hauth, hp, hl]
  have hpr := hπ auth la.ge
  have hAin : vk.Ain.length = cs.primaryInputSize := by rw [e9]; simp
  set ni := cs.primaryInputSize with hni
  clear_value ni
  refine ⟨pk, vk, auth, _, hg, hs, hpr, ?_, hAin, ?_⟩
  · have one2 : ∀ g : G1, P.e g P.one2 = P.e g ((1 : F) • P.one2) := by intro g; rw [one_smul]
    refine ⟨fun g _ => hwf1 g, hwf2 _, ?_, ?_, ?_, ?_, ?_, ?_⟩
    all_goals
      simp only [e1, e2, e3, e4, e5, e6, e7, e8, ← add_smul, one2, pair_smul]
      congr 1
    · ring
    · ring
    · ring
    · ring
    · linear_combination (T.rA * T.rB) * hH
    · ring
  · have key : (List.zipWith (fun g l => A.prf keys.2.2.S l • g) vk.Ain labels).sum
        = (∑ k ∈ Finset.range ni, (labels.map (A.prf S)).getD k 0 * (T.rA * a k)) • P.one1 := by
      have h1 : vk.Ain = batchExp P.one1 ((List.range ni).map fun k => T.rA * a k) := by
        rw [e9, batchExp, List.map_map]; rfl
      rw [h1]
      have h2 := zipWith_smul_batch P.one1 ((List.range ni).map fun k => T.rA * a k)
        (labels.map (A.prf S))
      rw [List.zipWith_map_right] at h2
      refine h2.trans ?_
      rw [innerProduct_eq_sum _ _ (by simp [hl]), List.length_map, hl]
      congr 1
      refine Finset.sum_congr rfl fun k hk => ?_
      have := Finset.mem_range.1 hk
      rw [List.getD_eq_getElem (List.map _ (List.range ni)) _ (by simpa using this)]
      simp
    rw [AdAuthentic, key]
    simp only [smul_smul, ← add_smul]
    congr 1
    have h3 : ∀ k ∈ Finset.range ni, (auth.map (·.mu)).getD k 0 * a k
        = (labels.map (A.prf S)).getD k 0 * a k + i * (p.getD k 0 * a k) := by
      intro k hk
      have := Finset.mem_range.1 hk
      rw [List.getD_eq_getElem _ _ (by simp [la]; omega), List.getD_eq_getElem _ _ (by simp [hl]; omega),
        List.getD_eq_getElem _ _ (by omega)]
      simp only [hauth, List.getElem_map, List.getElem_zipWith, adSignOne, keys, adAuthGenerate]
      ring
    rw [Finset.sum_congr rfl h3, Finset.sum_add_distrib, ← Finset.mul_sum]
    have h4 : ∑ k ∈ Finset.range ni, (labels.map (A.prf S)).getD k 0 * (T.rA * a k)
        = T.rA * ∑ k ∈ Finset.range ni, (labels.map (A.prf S)).getD k 0 * a k := by
      rw [Finset.mul_sum]
      exact Finset.sum_congr rfl fun k _ => by ring
    rw [h4]
    simp only [keys, adAuthGenerate]
    ring

/-- **C86** (symmetric verification): for every constraint system, key, trapdoor and randomness, a
proof for a satisfying assignment whose inputs were signed is accepted by the holder of the secret
key. Key generation never fails. -/
theorem C86_symmetric_complete [DecidableEq G1] [DecidableEq GT]
    (A : AdPrimitives F G2 Label Seed SK VK Sig) (P : Pairing F G1 G2 GT) (hD : D.Lawful)
    (cs : R1CS F) (hr : cs.WellRanged) (hm : cs.numConstraints + cs.numInputs + 1 ≤ D.m)
    (T : Pghr13Trapdoor F) (chunks : Nat)
    (hwf1 : ∀ g, P.wf1 g = true) (hwf2 : ∀ g, P.wf2 g = true)
    (skp : SK) (vkp : VK) (S : Seed) (i : F)
    (p w : List F) (hp : p.length = cs.primaryInputSize) (hw : w.length = cs.auxiliaryInputSize)
    (hsat : cs.isSatisfied p w = some true) (labels : List Label)
    (hl : labels.length = cs.primaryInputSize) (d1 d2 d3 dauth : F) :
    let keys := adAuthGenerate P skp vkp S i
    ∃ pk vk auth π, adGenerate P D cs keys.1 T chunks = some (pk, vk) ∧
      adSign A P p keys.2.2 labels = some auth ∧
      adProve D pk p w auth d1 d2 d3 dauth = some π ∧
      adVerifierSym A P vk π keys.2.2 labels = some true := by
  intro keys
  obtain ⟨pk, vk, auth, π, hg, hs, hpr, heq, hAin, hau⟩ := adHonest A P hD cs hr hm T chunks hwf1 hwf2
    skp vkp S i p w hp hw hsat labels hl d1 d2 d3 dauth
  refine ⟨pk, vk, auth, π, hg, hs, hpr, ?_⟩
  obtain ⟨b, hb, hi⟩ := adVerifierSym_eq A P vk π keys.2.2 labels (by omega)
  rw [hb, hi.2 ⟨heq, hau⟩]

/-- the signatures of honest authentication data verify as a batch -/
theorem adSign_batch (A : AdPrimitives F G2 Label Seed SK VK Sig) (P : Pairing F G1 G2 GT)
    (skp : SK) (vkp : VK) (hA : A.Signs skp vkp) (S : Seed) (i : F) (p : List F)
    (labels : List Label) (auth : List (AdAuthData F G2 Sig))
    (hs : adSign A P p ⟨i, skp, S⟩ labels = some auth) :
    A.batchVerify vkp labels (auth.map (·.Lambda)) (auth.map (·.sigma)) = true ∧
      auth.map (·.Lambda) = labels.map (fun l => A.prf S l • P.one2) := by
  rw [adSign] at hs
  split at hs
  · rename_i hl
    cases hs
    have h1 : ∀ (p : List F) (labels : List Label), labels.length = p.length →
        (List.zipWith (adSignOne A P ⟨i, skp, S⟩) p labels).map (·.Lambda)
          = labels.map (fun l => A.prf S l • P.one2) ∧
        (List.zipWith (adSignOne A P ⟨i, skp, S⟩) p labels).map (·.sigma)
          = labels.map (fun l => A.sign skp l (A.prf S l • P.one2)) := by
      intro p
      induction p with
      | nil => intro ls h; simp [List.length_eq_zero_iff.1 h]
      | cons x p ih =>
        intro ls h
        cases ls with
        | nil => simp at h
        | cons l ls =>
          obtain ⟨h1, h2⟩ := ih ls (by simpa using h)
          simp [h1, h2, adSignOne]
    obtain ⟨h2, h3⟩ := h1 p labels hl
    refine ⟨?_, h2⟩
    have := hA.batch (labels.map fun l => (l, A.prf S l • P.one2, A.sign skp l (A.prf S l • P.one2)))
    simp only [List.map_map, Function.comp_def, List.map_id'] at this
    rw [h2, h3, this]
    simp [hA.correct]
  · exact absurd hs (by simp)

/-- the pairings of the labels' values with the input elements -/
theorem pairSum_labels (A : AdPrimitives F G2 Label Seed SK VK Sig) (P : Pairing F G1 G2 GT) (S : Seed)
    (Ain : List G1) (labels : List Label) :
    pairSum P Ain (labels.map fun l => A.prf S l • P.one2)
      = P.e (List.zipWith (fun g l => A.prf S l • g) Ain labels).sum P.one2 := by
  induction Ain generalizing labels with
  | nil => simp [pairSum]
  | cons g Ain ih =>
    cases labels with
    | nil => simp [pairSum]
    | cons l labels =>
      have := ih labels
      simp only [pairSum] at this ⊢
      simp only [List.map_cons, List.zipWith_cons_cons, List.sum_cons, this, map_add,
        LinearMap.add_apply, map_smul, LinearMap.smul_apply]

/-- what the public verifier does with an honest proof: with an even number of inputs it accepts;
with an odd number it accepts exactly when the default value of the target field happens to be the
pairing it should have computed -/
theorem adPublicHonest [DecidableEq GT]
    (A : AdPrimitives F G2 Label Seed SK VK Sig) (P : Pairing F G1 G2 GT) (gtDefault : Option GT)
    (hD : D.Lawful) (cs : R1CS F) (hr : cs.WellRanged)
    (hm : cs.numConstraints + cs.numInputs + 1 ≤ D.m)
    (T : Pghr13Trapdoor F) (chunks : Nat)
    (hwf1 : ∀ g, P.wf1 g = true) (hwf2 : ∀ g, P.wf2 g = true)
    (skp : SK) (vkp : VK) (hA : A.Signs skp vkp) (S : Seed) (i : F)
    (p w : List F) (hp : p.length = cs.primaryInputSize) (hw : w.length = cs.auxiliaryInputSize)
    (hsat : cs.isSatisfied p w = some true) (labels : List Label)
    (hl : labels.length = cs.primaryInputSize) (d1 d2 d3 dauth : F) :
    let keys := adAuthGenerate P skp vkp S i
    ∃ pk vk auth π b, adGenerate P D cs keys.1 T chunks = some (pk, vk) ∧
      adSign A P p keys.2.2 labels = some auth ∧
      adProve D pk p w auth d1 d2 d3 dauth = some π ∧
      adVerifierPub A P gtDefault vk auth π keys.2.1 labels = some b ∧
      (cs.primaryInputSize % 2 = 0 → b = true) ∧
      (cs.primaryInputSize % 2 = 1 → ∃ g L, vk.Ain.head? = some g ∧
        (auth.head?.map (·.Lambda)) = some L ∧ (b = true ↔ gtDefault = some (P.e g L))) := by
  intro keys
  obtain ⟨pk, vk, auth, π, hg, hs, hpr, heq, hAin, hau⟩ := adHonest A P hD cs hr hm T chunks hwf1 hwf2
    skp vkp S i p w hp hw hsat labels hl d1 d2 d3 dauth
  obtain ⟨hb, hL⟩ := adSign_batch A P skp vkp hA S i p labels auth hs
  have la : auth.length = cs.primaryInputSize := by
    have := congrArg List.length hL
    simpa [hl] using this
  obtain ⟨b, hv, hi⟩ := adVerifierPub_eq A P gtDefault vk auth π keys.2.1 labels (by omega) (by omega)
  have hsum : P.e π.muA P.one2 + P.e π.gAau.1 keys.2.1.minusI2
      = pairSum P vk.Ain (auth.map (·.Lambda)) := by
    rw [hL, pairSum_labels, hau]
    simp only [keys, adAuthGenerate, map_add, LinearMap.add_apply, map_smul, LinearMap.smul_apply,
      zero_sub, map_neg]
    abel
  refine ⟨pk, vk, auth, π, b, hg, hs, hpr, hv, fun h0 => ?_, fun h1 => ?_⟩
  · rw [hi]
    refine ⟨heq, hb, ?_⟩
    rw [la, h0, hsum]
    simp
  · rw [la, h1, hsum] at hi
    obtain ⟨g, Ain', hA'⟩ : ∃ g Ain', vk.Ain = g :: Ain' := by
      cases hx : vk.Ain with
      | nil => rw [hx] at hAin; simp at hAin; omega
      | cons g t => exact ⟨g, t, rfl⟩
    obtain ⟨x, auth', hau'⟩ : ∃ x auth', auth = x :: auth' := by
      cases hx : auth with
      | nil => rw [hx] at la; simp at la; omega
      | cons g t => exact ⟨g, t, rfl⟩
    refine ⟨g, x.Lambda, by rw [hA']; rfl, by rw [hau']; rfl, ?_⟩
    rw [hi]
    constructor
    · rintro ⟨-, -, h2⟩
      cases hgd : gtDefault with
      | none => rw [hgd] at h2; simp at h2
      | some z =>
        rw [hgd, hA', hau'] at h2
        simp only [if_true, Option.map_some, List.map_cons, List.drop_succ_cons, List.drop_zero,
          pairSum, List.zipWith_cons_cons, List.sum_cons, Option.some.injEq, add_left_inj] at h2
        rw [h2]
    · intro h2
      refine ⟨heq, hb, ?_⟩
      rw [h2, hA', hau']
      simp [pairSum]

/-- **C86** (public verification): if the number of primary inputs is even, every honest proof on
honestly signed inputs is accepted by everyone with the public keys. The odd case is
`C86_public_odd`: there the claim is false. -/
theorem C86_public_complete_partial [DecidableEq GT]
    (A : AdPrimitives F G2 Label Seed SK VK Sig) (P : Pairing F G1 G2 GT) (gtDefault : Option GT)
    (hD : D.Lawful) (cs : R1CS F) (hr : cs.WellRanged)
    (hm : cs.numConstraints + cs.numInputs + 1 ≤ D.m)
    (T : Pghr13Trapdoor F) (chunks : Nat)
    (hwf1 : ∀ g, P.wf1 g = true) (hwf2 : ∀ g, P.wf2 g = true)
    (skp : SK) (vkp : VK) (hA : A.Signs skp vkp) (S : Seed) (i : F)
    (p w : List F) (hp : p.length = cs.primaryInputSize) (hw : w.length = cs.auxiliaryInputSize)
    (heven : cs.primaryInputSize % 2 = 0)
    (hsat : cs.isSatisfied p w = some true) (labels : List Label)
    (hl : labels.length = cs.primaryInputSize) (d1 d2 d3 dauth : F) :
    let keys := adAuthGenerate P skp vkp S i
    ∃ pk vk auth π, adGenerate P D cs keys.1 T chunks = some (pk, vk) ∧
      adSign A P p keys.2.2 labels = some auth ∧
      adProve D pk p w auth d1 d2 d3 dauth = some π ∧
      adVerifierPub A P gtDefault vk auth π keys.2.1 labels = some true := by
  intro keys
  obtain ⟨pk, vk, auth, π, b, hg, hs, hpr, hv, h0, -⟩ := adPublicHonest A P gtDefault hD cs hr hm T
    chunks hwf1 hwf2 skp vkp hA S i p w hp hw hsat labels hl d1 d2 d3 dauth
  exact ⟨pk, vk, auth, π, hg, hs, hpr, by rw [hv, h0 heven]⟩

/-- **C86** (public verification, odd number of inputs): every honest proof on honestly signed inputs
is rejected, when a default-constructed element of the target field is its zero: the verifier throws
the first pairing away. -/
theorem C86_public_odd [DecidableEq GT]
    (A : AdPrimitives F G2 Label Seed SK VK Sig) (P : Pairing F G1 G2 GT)
    (hD : D.Lawful) (cs : R1CS F) (hr : cs.WellRanged)
    (hm : cs.numConstraints + cs.numInputs + 1 ≤ D.m)
    (T : Pghr13Trapdoor F) (chunks : Nat)
    (hwf1 : ∀ g, P.wf1 g = true) (hwf2 : ∀ g, P.wf2 g = true)
    (skp : SK) (vkp : VK) (hA : A.Signs skp vkp) (S : Seed) (i : F)
    (p w : List F) (hp : p.length = cs.primaryInputSize) (hw : w.length = cs.auxiliaryInputSize)
    (hodd : cs.primaryInputSize % 2 = 1)
    (hsat : cs.isSatisfied p w = some true) (labels : List Label)
    (hl : labels.length = cs.primaryInputSize) (d1 d2 d3 dauth : F) :
    let keys := adAuthGenerate P skp vkp S i
    ∃ pk vk auth π, adGenerate P D cs keys.1 T chunks = some (pk, vk) ∧
      adSign A P p keys.2.2 labels = some auth ∧
      adProve D pk p w auth d1 d2 d3 dauth = some π ∧
      adVerifierPub A P none vk auth π keys.2.1 labels = some false := by
  intro keys
  obtain ⟨pk, vk, auth, π, b, hg, hs, hpr, hv, -, h1⟩ := adPublicHonest A P none hD cs hr hm T
    chunks hwf1 hwf2 skp vkp hA S i p w hp hw hsat labels hl d1 d2 d3 dauth
  refine ⟨pk, vk, auth, π, hg, hs, hpr, ?_⟩
  obtain ⟨g, L, -, -, h2⟩ := h1 hodd
  rw [hv]
  cases b with
  | false => rfl
  | true => exact absurd (h2.1 rfl) (by simp)

/-- **C86** (public verification, odd number of inputs, any default value): an honest proof is
accepted only if the default-constructed element is the pairing of the first input element with the
first `Lambda`, a value that depends on the keys. -/
theorem C86_public_odd_any_default [DecidableEq GT]
    (A : AdPrimitives F G2 Label Seed SK VK Sig) (P : Pairing F G1 G2 GT) (gtDefault : Option GT)
    (hD : D.Lawful) (cs : R1CS F) (hr : cs.WellRanged)
    (hm : cs.numConstraints + cs.numInputs + 1 ≤ D.m)
    (T : Pghr13Trapdoor F) (chunks : Nat)
    (hwf1 : ∀ g, P.wf1 g = true) (hwf2 : ∀ g, P.wf2 g = true)
    (skp : SK) (vkp : VK) (hA : A.Signs skp vkp) (S : Seed) (i : F)
    (p w : List F) (hp : p.length = cs.primaryInputSize) (hw : w.length = cs.auxiliaryInputSize)
    (hodd : cs.primaryInputSize % 2 = 1)
    (hsat : cs.isSatisfied p w = some true) (labels : List Label)
    (hl : labels.length = cs.primaryInputSize) (d1 d2 d3 dauth : F) :
    let keys := adAuthGenerate P skp vkp S i
    ∃ pk vk auth π g L, adGenerate P D cs keys.1 T chunks = some (pk, vk) ∧
      adSign A P p keys.2.2 labels = some auth ∧
      adProve D pk p w auth d1 d2 d3 dauth = some π ∧
      vk.Ain.head? = some g ∧ (auth.head?.map (·.Lambda)) = some L ∧
      (adVerifierPub A P gtDefault vk auth π keys.2.1 labels = some true ↔
        gtDefault = some (P.e g L)) := by
  intro keys
  obtain ⟨pk, vk, auth, π, b, hg, hs, hpr, hv, -, h1⟩ := adPublicHonest A P gtDefault hD cs hr hm T
    chunks hwf1 hwf2 skp vkp hA S i p w hp hw hsat labels hl d1 d2 d3 dauth
  obtain ⟨g, L, h2, h3, h4⟩ := h1 hodd
  exact ⟨pk, vk, auth, π, g, L, hg, hs, hpr, h2, h3, by rw [hv, ← h4]; simp⟩

/-! ## C87: what acceptance means -/

/-- **C87** (symmetric verifier): with no more labels than input elements the verifier answers, and
accepts exactly when the equations and the authentication equation hold. -/
theorem C87_symmetric_iff [DecidableEq G1] [DecidableEq GT]
    (A : AdPrimitives F G2 Label Seed SK VK Sig) (P : Pairing F G1 G2 GT) (vk : AdVK G1 G2)
    (π : AdProof G1 G2) (sak : AdSecKey F Seed SK) (labels : List Label)
    (hl : labels.length ≤ vk.Ain.length) :
    (adVerifierSym A P vk π sak labels = some true ↔
      AdEquations P vk π ∧ AdAuthentic A vk π sak labels) ∧
    (adVerifierSym A P vk π sak labels = some false ↔
      ¬ (AdEquations P vk π ∧ AdAuthentic A vk π sak labels)) := by
  obtain ⟨b, hb, hi⟩ := adVerifierSym_eq A P vk π sak labels hl
  rw [hb, ← hi]
  cases b <;> simp

/-- **C87** (more labels than inputs): the verifiers read beyond the verification key. -/
theorem C87_too_many_labels [DecidableEq G1] [DecidableEq GT]
    (A : AdPrimitives F G2 Label Seed SK VK Sig) (P : Pairing F G1 G2 GT) (vk : AdVK G1 G2)
    (π : AdProof G1 G2) (sak : AdSecKey F Seed SK) (labels : List Label)
    (hl : vk.Ain.length < labels.length) : adVerifierSym A P vk π sak labels = none := by
  unfold adVerifierSym
  rw [slice, if_neg (by omega)]
  rfl

/-- **C87** (labels without data or data without labels): the public verifier's assertion fails, whatever the
proof. -/
theorem C87_length_mismatch [DecidableEq GT] (A : AdPrimitives F G2 Label Seed SK VK Sig)
    (P : Pairing F G1 G2 GT) (gtDefault : Option GT) (vk : AdVK G1 G2)
    (auth : List (AdAuthData F G2 Sig)) (π : AdProof G1 G2) (pak : AdPubKey G2 VK)
    (labels : List Label) (h : labels.length ≠ auth.length) :
    adVerifierPub A P gtDefault vk auth π pak labels = none := by
  simp [adVerifierPub, guard, h]

/-- **C87** (public verifier, even number of labels): on matching lists with no more labels than
input elements the verifier answers, and accepts exactly when the equations hold, the batch of
signatures verifies, and the authentication equation holds in the target group. -/
theorem C87_public_iff_partial [DecidableEq GT]
    (A : AdPrimitives F G2 Label Seed SK VK Sig) (P : Pairing F G1 G2 GT) (gtDefault : Option GT)
    (vk : AdVK G1 G2) (auth : List (AdAuthData F G2 Sig)) (π : AdProof G1 G2) (pak : AdPubKey G2 VK)
    (labels : List Label) (hla : labels.length = auth.length) (hl : labels.length ≤ vk.Ain.length)
    (heven : labels.length % 2 = 0) :
    let accepts := AdEquations P vk π ∧
      A.batchVerify pak.vkp labels (auth.map (·.Lambda)) (auth.map (·.sigma)) = true ∧
      (List.zipWith (fun g a => P.e g a.Lambda) vk.Ain auth).sum
        = P.e π.muA P.one2 + P.e π.gAau.1 pak.minusI2
    (adVerifierPub A P gtDefault vk auth π pak labels = some true ↔ accepts) ∧
    (adVerifierPub A P gtDefault vk auth π pak labels = some false ↔ ¬ accepts) := by
  intro accepts
  obtain ⟨b, hb, hi⟩ := adVerifierPub_eq A P gtDefault vk auth π pak labels hla hl
  rw [← hla, heven] at hi
  have : b = true ↔ accepts := by
    rw [hi]
    simp only [accepts, pairSum, List.drop_zero, zero_ne_one, if_false, Option.map_some, zero_add,
      Option.some.injEq, List.zipWith_map_right]
  rw [hb, ← this]
  cases b <;> simp

/-- **C87** (the two verifiers agree): if the `Lambda`s are the ones of the secret key, the public key
belongs to it and the signatures verify, then with an even number of labels the public verifier
accepts exactly the proofs that the holder of the secret key accepts. -/
theorem C87_verifiers_agree [DecidableEq G1] [DecidableEq GT]
    (A : AdPrimitives F G2 Label Seed SK VK Sig) (P : Pairing F G1 G2 GT) (gtDefault : Option GT)
    (hnd : ∀ g : G1, P.e g P.one2 = 0 → g = 0)
    (skp : SK) (vkp : VK) (hA : A.Signs skp vkp) (S : Seed) (i : F) (data : List F)
    (vk : AdVK G1 G2) (auth : List (AdAuthData F G2 Sig)) (π : AdProof G1 G2)
    (labels : List Label) (hl : labels.length ≤ vk.Ain.length) (heven : labels.length % 2 = 0) :
    let keys := adAuthGenerate P skp vkp S i
    adSign A P data keys.2.2 labels = some auth →
    adVerifierPub A P gtDefault vk auth π keys.2.1 labels = adVerifierSym A P vk π keys.2.2 labels := by
  intro keys hs
  obtain ⟨hb, hL⟩ := adSign_batch A P skp vkp hA S i data labels auth hs
  have la : labels.length = auth.length := by
    have := congrArg List.length hL
    simpa using this.symm
  obtain ⟨b, hb1, hi1⟩ := adVerifierPub_eq A P gtDefault vk auth π keys.2.1 labels la hl
  obtain ⟨b', hb2, hi2⟩ := adVerifierSym_eq A P vk π keys.2.2 labels hl
  rw [← la, heven] at hi1
  have : b = true ↔ b' = true := by
    rw [hi1, hi2]
    refine and_congr_right fun _ => ?_
    have h1 : A.batchVerify keys.2.1.vkp labels (auth.map (·.Lambda)) (auth.map (·.sigma)) = true := hb
    rw [h1, hL]
    simp only [true_and, List.drop_zero, zero_ne_one, if_false, Option.map_some, zero_add,
      Option.some.injEq, pairSum_labels, AdAuthentic]
    set W := (List.zipWith (fun g l => A.prf S l • g) vk.Ain labels).sum with hW
    have h2 : P.e π.muA P.one2 + P.e π.gAau.1 keys.2.1.minusI2
        = P.e (π.muA - i • π.gAau.1) P.one2 := by
      simp only [keys, adAuthGenerate, map_sub, LinearMap.sub_apply, map_smul, LinearMap.smul_apply,
        zero_sub, map_neg]
      abel
    rw [h2]
    constructor
    · intro h3
      have h4 := hnd (W - (π.muA - i • π.gAau.1)) (by rw [map_sub, LinearMap.sub_apply, h3, sub_self])
      have h5 : π.muA = i • π.gAau.1 + W := by
        have := sub_eq_zero.1 h4
        rw [this]; abel
      exact h5
    · intro h3
      have h5 : π.muA = i • π.gAau.1 + W := h3
      rw [h5]
      congr 2
      abel
  rw [hb1, hb2]
  congr 1
  cases b <;> cases b' <;> simp_all

/-- **C87** (the tags bind the inputs): someone who does not have the secret key sees the tags
`muₖ = λₖ + i·xₖ` of the data `x` and elements multiplied by `i`. Say they compute the authenticated
part and the authenticator of a proof from these, `v₀ + Σ muₖ·vₖ + i·v'` and
`u₀ + Σ muₖ·uₖ + i·u'`, with coefficients fixed before the key and the pseudorandom values are drawn.
Unless the authenticated part is `Σ xₖ·Ainₖ + u'`, the inputs that were signed plus what they put
there themselves, no more than `2·|F|ⁿ` of the `|F|ⁿ⁺¹` choices of key and pseudorandom values make
the holder of the secret key accept, whatever the rest of the proof is. The restriction to such
computations and to coefficients fixed in advance is why this is partial. -/
theorem C87_tags_bind_partial [DecidableEq G1] [DecidableEq GT] [Fintype F] {n : Nat}
    (P : Pairing F G1 G2 GT) (vk : AdVK G1 G2) (hAin : vk.Ain.length = n) (x : Fin n → F)
    (labels : Fin n → Label) (u0 u' v0 v' : G1) (u v : Fin n → G1)
    (hcheat : ¬ (v0 = (∑ k, x k • vk.Ain[k]'(by omega)) + u' ∧ v = 0 ∧ v' = 0))
    (accepting : Finset (F × (Fin n → F)))
    (hacc : ∀ z ∈ accepting, ∃ (A : AdPrimitives F G2 Label Seed SK VK Sig) (sak : AdSecKey F Seed SK)
      (π : AdProof G1 G2), sak.i = z.1 ∧ (∀ k, A.prf sak.S (labels k) = z.2 k) ∧
      π.gAau.1 = v0 + (∑ k, (z.2 k + z.1 * x k) • v k) + z.1 • v' ∧
      π.muA = u0 + (∑ k, (z.2 k + z.1 * x k) • u k) + z.1 • u' ∧
      adVerifierSym A P vk π sak (List.ofFn labels) = some true) :
    accepting.card ≤ 2 * Fintype.card F ^ n := by
  refine tag_count (-u0) (v0 - (∑ k, x k • u k) - u') ((∑ k, x k • v k) + v')
    (fun k => vk.Ain[k]'(by omega) - u k) v ?_ accepting ?_
  · by_contra hcon
    push Not at hcon
    obtain ⟨h1, h2, h3, h4⟩ := hcon
    have hv : v = 0 := funext h2
    have hu : ∀ k, u k = vk.Ain[k]'(by omega) := fun k => (sub_eq_zero.1 (h1 k)).symm
    apply hcheat
    refine ⟨?_, hv, ?_⟩
    · have : v0 = (∑ k, x k • u k) + u' := by
        rw [sub_sub] at h3
        exact sub_eq_zero.1 h3
      rw [this]
      congr 1
      exact Finset.sum_congr rfl fun k _ => by rw [hu]
    · simpa [hv] using h4
  · intro z hz
    obtain ⟨A, sak, π, hi, hprf, hg, hmu, hv⟩ := hacc z hz
    obtain ⟨-, hau⟩ := (C87_symmetric_iff A P vk π sak (List.ofFn labels) (by simp; omega)).1.1 hv
    have hsum : (List.zipWith (fun g l => A.prf sak.S l • g) vk.Ain (List.ofFn labels)).sum
        = ∑ k, z.2 k • vk.Ain[k]'(by omega) := by
      have : List.zipWith (fun g l => A.prf sak.S l • g) vk.Ain (List.ofFn labels)
          = List.ofFn fun k : Fin n => z.2 k • vk.Ain[k]'(by omega) := by
        refine List.ext_getElem (by simp [hAin]) fun k h1 h2 => ?_
        simp [hprf]
      rw [this, List.sum_ofFn]
    rw [AdAuthentic, hsum, hg, hmu, hi] at hau
    simp only [smul_sub, smul_add, Finset.sum_sub_distrib, Finset.sum_add_distrib, add_smul,
      Finset.smul_sum, smul_smul] at hau ⊢
    have e1 : ∑ k, (z.2 k * z.1) • v k = ∑ k, (z.1 * z.2 k) • v k :=
      Finset.sum_congr rfl fun k _ => by rw [mul_comm]
    have e2 : ∑ k, (z.1 * (z.1 * x k)) • v k = ∑ k, (z.1 * z.1 * x k) • v k :=
      Finset.sum_congr rfl fun k _ => by rw [mul_assoc]
    rw [e2] at hau
    rw [e1]
    rw [← sub_eq_zero] at hau
    rw [← neg_eq_zero, ← hau]
    abel

/-- **C87** (the tags bind the inputs, adaptive provers): the coefficients may depend on the key and on
everything the prover has seen. They determine a set of at most `2·|F|ⁿ` of the `|F|ⁿ⁺¹` choices of key
and pseudorandom values; if the holder of the secret key accepts, the key and the pseudorandom values
are in it, or the authenticated part is `Σ xₖ·Ainₖ + u'`. -/
theorem C87_adaptive_provers_partial [DecidableEq G1] [DecidableEq GT] [Fintype F] {n : Nat}
    (P : Pairing F G1 G2 GT) (vk : AdVK G1 G2) (hAin : vk.Ain.length = n) (x : Fin n → F)
    (labels : Fin n → Label) :
    ∃ bad : (G1 × G1 × (Fin n → G1)) → (G1 × G1 × (Fin n → G1)) → Finset (F × (Fin n → F)),
      (∀ u v, (bad u v).card ≤ 2 * Fintype.card F ^ n) ∧
      ∀ (A : AdPrimitives F G2 Label Seed SK VK Sig) (sak : AdSecKey F Seed SK) (π : AdProof G1 G2)
        (u0 u' v0 v' : G1) (u v : Fin n → G1),
        π.gAau.1 = v0 + (∑ k, (A.prf sak.S (labels k) + sak.i * x k) • v k) + sak.i • v' →
        π.muA = u0 + (∑ k, (A.prf sak.S (labels k) + sak.i * x k) • u k) + sak.i • u' →
        adVerifierSym A P vk π sak (List.ofFn labels) = some true →
        (v0 = (∑ k, x k • vk.Ain[k]'(by omega)) + u' ∧ v = 0 ∧ v' = 0) ∨
          (sak.i, fun k => A.prf sak.S (labels k)) ∈ bad (u0, u', u) (v0, v', v) := by
  classical
  let hits : (G1 × G1 × (Fin n → G1)) → (G1 × G1 × (Fin n → G1)) → Finset (F × (Fin n → F)) :=
    fun u v => Finset.univ.filter fun z => ∃ (A : AdPrimitives F G2 Label Seed SK VK Sig)
      (sak : AdSecKey F Seed SK) (π : AdProof G1 G2), sak.i = z.1 ∧ (∀ k, A.prf sak.S (labels k) = z.2 k) ∧
      π.gAau.1 = v.1 + (∑ k, (z.2 k + z.1 * x k) • v.2.2 k) + z.1 • v.2.1 ∧
      π.muA = u.1 + (∑ k, (z.2 k + z.1 * x k) • u.2.2 k) + z.1 • u.2.1 ∧
      adVerifierSym A P vk π sak (List.ofFn labels) = some true
  refine ⟨fun u v => if v.1 = (∑ k, x k • vk.Ain[k]'(by omega)) + u.2.1 ∧ v.2.2 = 0 ∧ v.2.1 = 0 then ∅
    else hits u v, fun u v => ?_, fun A sak π u0 u' v0 v' u v hg hm hv => ?_⟩
  · dsimp only
    split
    · simp
    · rename_i hch
      exact C87_tags_bind_partial (Seed := Seed) (SK := SK) (VK := VK) (Sig := Sig) P vk hAin x labels u.1 u.2.1
        v.1 v.2.1 u.2.2 v.2.2 hch (hits u v) fun z hz => (Finset.mem_filter.1 hz).2
  · by_cases hch : v0 = (∑ k, x k • vk.Ain[k]'(by omega)) + u' ∧ v = 0 ∧ v' = 0
    · exact .inl hch
    · right
      dsimp only
      rw [if_neg hch]
      exact Finset.mem_filter.2 ⟨Finset.mem_univ _, A, sak, π, rfl, fun _ => rfl, hg, hm, hv⟩

/-- **C87** (the tags bind the inputs, provers of any kind that have seen the tags only): whatever
function of the tags `muₖ = λₖ + i·xₖ` the proof is, no more than `|F|ⁿ` of the `|F|ⁿ⁺¹` choices of key
and pseudorandom values make the holder of the secret key accept it with an authenticated part other
than that of the data, `Σ xₖ·Ainₖ`. Nothing about the prover's computations is assumed. -/
theorem C87_tags_only [DecidableEq G1] [DecidableEq GT] [Fintype F] {n : Nat}
    (P : Pairing F G1 G2 GT) (vk : AdVK G1 G2) (hAin : vk.Ain.length = n) (x : Fin n → F)
    (labels : Fin n → Label) (prover : (Fin n → F) → AdProof G1 G2)
    (accepting : Finset (F × (Fin n → F)))
    (hacc : ∀ z ∈ accepting, ∃ (A : AdPrimitives F G2 Label Seed SK VK Sig) (sak : AdSecKey F Seed SK),
      sak.i = z.1 ∧ (∀ k, A.prf sak.S (labels k) = z.2 k) ∧
      (prover fun k => z.2 k + z.1 * x k).gAau.1 ≠ ∑ k, x k • vk.Ain[k]'(by omega) ∧
      adVerifierSym A P vk (prover fun k => z.2 k + z.1 * x k) sak (List.ofFn labels) = some true) :
    accepting.card ≤ Fintype.card F ^ n := by
  classical
  have hinj : Set.InjOn (fun z : F × (Fin n → F) => fun k => z.2 k + z.1 * x k) accepting := by
    have key : ∀ z ∈ accepting, (prover fun k => z.2 k + z.1 * x k).muA -
        ∑ k, (z.2 k + z.1 * x k) • vk.Ain[k]'(by omega) =
        z.1 • ((prover fun k => z.2 k + z.1 * x k).gAau.1 - ∑ k, x k • vk.Ain[k]'(by omega)) ∧
        (prover fun k => z.2 k + z.1 * x k).gAau.1 ≠ ∑ k, x k • vk.Ain[k]'(by omega) := by
      intro z hz
      obtain ⟨A, sak, hi, hprf, hne, hv⟩ := hacc z hz
      refine ⟨?_, hne⟩
      obtain ⟨-, hau⟩ := (C87_symmetric_iff A P vk _ sak (List.ofFn labels) (by simp; omega)).1.1 hv
      have hsum : (List.zipWith (fun g l => A.prf sak.S l • g) vk.Ain (List.ofFn labels)).sum
          = ∑ k, z.2 k • vk.Ain[k]'(by omega) := by
        have : List.zipWith (fun g l => A.prf sak.S l • g) vk.Ain (List.ofFn labels)
            = List.ofFn fun k : Fin n => z.2 k • vk.Ain[k]'(by omega) := by
          refine List.ext_getElem (by simp [hAin]) fun k h1 h2 => ?_
          simp [hprf]
        rw [this, List.sum_ofFn]
      rw [AdAuthentic, hsum, hi] at hau
      rw [hau]
      simp only [add_smul, Finset.sum_add_distrib, smul_sub, Finset.smul_sum, smul_smul]
      abel
    rintro ⟨i, l⟩ hz ⟨i', l'⟩ hz' heq
    have h1 := key _ hz
    have h2 := key _ hz'
    dsimp only at heq h1 h2
    rw [← heq] at h2
    have hs : ∑ k, (l' k + i' * x k) • vk.Ain[k]'(by omega) = ∑ k, (l k + i * x k) • vk.Ain[k]'(by omega) :=
      Finset.sum_congr rfl fun k _ => by rw [show l' k + i' * x k = l k + i * x k from (congrFun heq k).symm]
    rw [hs] at h2
    have h3 := h1.1.symm.trans h2.1
    rw [← sub_eq_zero, ← sub_smul] at h3
    have hii : i = i' := by
      rcases smul_eq_zero.1 h3 with h | h
      · exact sub_eq_zero.1 h
      · exact absurd (sub_eq_zero.1 h) h1.2
    subst hii
    have : l = l' := by
      funext k
      have := congrFun heq k
      simpa using this
    rw [this]
  have := Finset.card_le_card_of_injOn _ (fun z _ => Finset.mem_coe.2 (Finset.mem_univ _)) hinj
  simpa using this

section Examples

/-- a toy instance of the primitives: a signature is the signed message -/
def exAd (F : Type) [Field F] [DecidableEq F] : AdPrimitives F F Nat F Unit Unit (Nat × F) where
  prf S l := S * (l + 1) + 1
  sign _ l L := (l, L)
  verify _ l L s := decide (s = (l, L))
  batchVerify _ ls Ls ss := decide (ss = ls.zip Ls)

theorem exAd_signs (F : Type) [Field F] [DecidableEq F] : (exAd F).Signs () () := by
  refine ⟨fun l L => by simp [exAd], fun es => ?_⟩
  induction es with
  | nil => rfl
  | cons e es ih =>
    rw [List.all_cons, ← ih]
    simp [exAd]

/-- `x₃ · x₃ = x₁ + x₂` with `x₁`, `x₂` public -/
def exSum : R1CS ℚ := ⟨2, 1, [⟨[⟨3, 1⟩], [⟨3, 1⟩], [⟨1, 1⟩, ⟨2, 1⟩]⟩]⟩

theorem exSum_ok : exSum.WellRanged := by
  intro k hk
  simp only [exSum, List.mem_singleton] at hk
  subst hk
  refine ⟨?_, ?_, ?_⟩ <;> · intro t ht; simp at ht; rcases ht with rfl | rfl <;> decide

example (S i : ℚ) := C85_signed_data_verifies (exAd ℚ) exPairing () () (exAd_signs ℚ) S i [3, 6] [8, 9] rfl

example (S : ℚ) (auth : List (AdAuthData ℚ ℚ (Nat × ℚ))) (h : auth.length = 2) := C85_binding (exAd ℚ) exPairing () () S 5 (by norm_num)
  (fun c h => by simpa [exPairing] using h) [3, 6] [3, 7] auth [8, 9] rfl rfl h

example (S i y : ℚ) := C85_label_reuse (exAd ℚ) exPairing () () (exAd_signs ℚ) S i 3 6 y (by norm_num) 4

example (T : Pghr13Trapdoor ℚ) (S i d1 d2 d3 d : ℚ) := C86_symmetric_complete (exAd ℚ) exPairing exDom4
  exSum exSum_ok (by decide) T 2 (fun _ => rfl) (fun _ => rfl) () () S i [3, 6] [3] rfl rfl
  (by decide +kernel) [8, 9] rfl d1 d2 d3 d

example (T : Pghr13Trapdoor ℚ) (S i d1 d2 d3 d : ℚ) := C86_public_complete_partial (exAd ℚ) exPairing
  none exDom4 exSum exSum_ok (by decide) T 2 (fun _ => rfl) (fun _ => rfl) () () (exAd_signs ℚ) S i
  [3, 6] [3] rfl rfl rfl (by decide +kernel) [8, 9] rfl d1 d2 d3 d

/-- one public input: the public verifier rejects -/
example (T : Pghr13Trapdoor ℚ) (S i d1 d2 d3 d : ℚ) := C86_public_odd (exAd ℚ) exPairing
  exDom4 exRoot exRoot_ok (by decide) T 2 (fun _ => rfl) (fun _ => rfl) () () (exAd_signs ℚ) S i
  [9] [3] rfl rfl rfl (by decide +kernel) [8] rfl d1 d2 d3 d

example (S i : ℚ) (vk : AdVK ℚ ℚ) (π : AdProof ℚ ℚ) (h : vk.Ain.length = 2) (auth) :=
  C87_verifiers_agree (exAd ℚ) exPairing none (fun g h => by simpa [exPairing] using h) () ()
    (exAd_signs ℚ) S i [3, 6] vk auth π [8, 9] (by simp [h]) rfl

instance exAdPrime : Fact (Nat.Prime 5) := ⟨by norm_num⟩

/-- a prover who was given the tag of `2` and authenticates `3`: accepted for one key -/
example : ({(0, fun _ => 0), (0, fun _ => 1)} : Finset (ZMod 5 × (Fin 1 → ZMod 5))).card
    ≤ 2 * Fintype.card (ZMod 5) ^ 1 := by
  refine C87_tags_bind_partial (SK := Unit) (VK := Unit) (Sig := Unit) (Seed := ZMod 5) (Label := Nat)
    (⟨LinearMap.mul (ZMod 5) (ZMod 5), 1, 1, fun _ => true, fun _ => true⟩ :
      Pairing (ZMod 5) (ZMod 5) (ZMod 5) (ZMod 5))
    ⟨1, 0, 0, 0, 0, 0, 0, -3, [1]⟩ rfl (fun _ => 2) (fun _ => 0) 0 0 3 0 (fun _ => 1) 0
    (by decide) _ ?_
  intro z hz
  refine ⟨⟨fun S _ => S, fun _ _ _ => (), fun _ _ _ _ => true, fun _ _ _ _ => true⟩,
    ⟨z.1, (), z.2 0⟩, ⟨(0, 0), (0, 0), (0, 0), 0, 0, (3, 3), z.2 0⟩, rfl, ?_, ?_, ?_, ?_⟩
  · intro k; exact congrArg z.2 (Subsingleton.elim (0 : Fin 1) k)
  · simp
  · fin_cases hz <;> decide
  · fin_cases hz <;> decide +kernel

/-- the same prover as a function of the tag -/
example : ({(0, fun _ => 0), (0, fun _ => 1)} : Finset (ZMod 5 × (Fin 1 → ZMod 5))).card
    ≤ Fintype.card (ZMod 5) ^ 1 := by
  refine C87_tags_only (SK := Unit) (VK := Unit) (Sig := Unit) (Seed := ZMod 5) (Label := Nat)
    (⟨LinearMap.mul (ZMod 5) (ZMod 5), 1, 1, fun _ => true, fun _ => true⟩ :
      Pairing (ZMod 5) (ZMod 5) (ZMod 5) (ZMod 5))
    ⟨1, 0, 0, 0, 0, 0, 0, -3, [1]⟩ rfl (fun _ => 2) (fun _ => 0)
    (fun mu => ⟨(0, 0), (0, 0), (0, 0), 0, 0, (3, 3), mu 0⟩) _ ?_
  intro z hz
  refine ⟨⟨fun S _ => S, fun _ _ _ => (), fun _ _ _ _ => true, fun _ _ _ _ => true⟩,
    ⟨z.1, (), z.2 0⟩, rfl, ?_, ?_, ?_⟩
  · intro k; exact congrArg z.2 (Subsingleton.elim (0 : Fin 1) k)
  · show (3 : ZMod 5) ≠ ∑ k : Fin 1, (2 : ZMod 5) • ([1] : List (ZMod 5)).getD k.val 0
    decide +kernel
  · fin_cases hz <;> decide +kernel

end Examples

end Crypto3Zk
