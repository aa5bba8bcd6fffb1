import Verif.Lemmas.LPCSession
import Verif.Props.EvalStorage

set_option linter.unusedSectionVars false

namespace Crypto3Zk

open Polynomial

variable {F : Type} [Field F] {Tree Root Path S : Type}
variable {L : FftLib F} {A : Nat}

/-- the setup of the FRI run inside an LPC session -/
theorem lpc_fri_setup [DecidableEq F] (hL : L.Lawful A) (M : MerkleLib F Tree Root Path)
    (prm : FriParams F) (n d : Nat) (hp hv : List (LpcOp F)) (P : Nat → List (List F)) (etha : F)
    (sess : LpcSession L prm A n d hp hv P etha) (sp v : LpcScheme F Tree)
    (hsp : runLpc L M prm hp = some sp) (hrv : runLpc L M prm hv = some v)
    (data : OMap (List F))
    (hdata : ∀ k, LpcOp.markFixed k ∈ hp → LpcOp.commit k ∈ hp →
      data.find k = some ((P k).map fun c => evalPoly c etha)) :
    ∃ (ev' : PolysEvaluator F) (keys : List Nat) (own : List (F × List (List F × F)))
      (claims : List (F × List ((Nat × Nat) × F))),
      LpcSessionView L hp P sp v ev' keys ∧
      lpcProverItems { sp with etha := etha, fixedValues := data } ev' = some own ∧
      lpcVerifierItems { v with etha := etha, fixedValues := data } ev'.z = some claims ∧
      ∀ theta, lpcCombined theta own ≠ [] ∧
        (lpcCombined theta own).length ≤ prm.maxDegree + 1 ∧
        FriSetup L M prm A n sp.forms (keys.map fun k => (k, P k)) sp.trees
          (sp.trees.map fun e => (e.1, M.root e.2)) theta (lpcItems theta 1 claims)
          (lpcCombined theta own) ∧
        ∀ y, (∀ k i, LpcOp.commit k ∈ hp → i < (P k).length → y ∉ lpcRequested k i hp) →
          ((∃ k, LpcOp.markFixed k ∈ hp) → y ≠ etha) →
          evalPoly (lpcCombined theta own) y = quotientValue (keys.map fun k => (k, P k)) theta y
            (lpcItems theta 1 claims) 1 := by
  obtain ⟨ev', keys, w⟩ := lpc_session_view M prm n d hp hv P etha sess sp v hsp hrv
  have inv := lpc_run L M prm hp sp hsp
  have vinv := lpc_run L M prm hv v hrv
  have hce : ∀ k i, i < (P k).length → ∀ c, (P k)[i]? = some c →
      (∀ y, evalPoly (lpcCoeffs L hp k i) y = evalPoly c y) ∧
        (lpcCoeffs L hp k i).length ≤ max 1 c.length := by
    intro k i hi c hc
    rw [List.getElem?_eq_getElem hi, Option.some.injEq] at hc
    subst hc
    exact lpcCoeffs_eval hL n sess.adicity hp P k (sess.polys k) i hi
  have hfv : ∀ k ∈ keys, LpcOp.markFixed k ∈ hp → data.find k
      = some ((List.range (P k).length).map fun i => evalPoly (lpcCoeffs L hp k i) etha) := by
    intro k hk hm
    rw [hdata k hm ((w.keysMem k).1 hk)]
    congr 1
    apply List.ext_getElem
    · simp
    · intro i h1 h2
      simp only [List.length_map, List.length_range] at h1 h2
      simp only [List.getElem_map, List.getElem_range]
      exact ((hce k i h2 _ (List.getElem?_eq_getElem h2)).1 etha).symm
  have hfixeq : ∀ k, sp.batchFixed.getD k false = v.batchFixed.getD k false := by
    intro k
    rw [Bool.eq_iff_iff, inv.fixed, vinv.fixed, sess.sameFixed]
  set fixed : Nat → Bool := fun k => sp.batchFixed.getD k false with hfixed
  set anyFixed : Bool := v.batchFixed.any fun e => e.2 with hanyFixed
  set nn : Nat → Nat := fun k => (P k).length with hnn
  set ff := lpcCoeffs L hp with hff
  set pts : Nat → Nat → List F := fun k i => lpcRequested k i hp with hpts
  have hv2 : LpcView { v.ev with z := ev'.z } keys nn ff pts := by
    refine ⟨?_, w.prover.z⟩
    show v.ev.points = _
    rw [w.verifier, w.prover.points]
  have huniq : ({ v.ev with z := ev'.z } : PolysEvaluator F).uniquePoints = ev'.uniquePoints := by
    simp only [PolysEvaluator.uniquePoints]
    rw [w.verifier]
  have hany : (anyFixed = true ↔ ∃ k, LpcOp.markFixed k ∈ hp) := by
    rw [hanyFixed, vinv.fixedAny]
    exact exists_congr fun k => (sess.sameFixed k).symm
  refine ⟨ev', keys, lpcOwn keys nn ff pts ev'.uniquePoints etha fixed,
    lpcClaims keys nn ff pts ev'.uniquePoints etha fixed anyFixed, w, ?_, ?_, ?_⟩
  · unfold lpcProverItems
    rw [mapM_eq_some_map _ (fun x => (x, (openedAt keys nn pts x).map fun id =>
      (ff id.1 id.2, evalPoly (ff id.1 id.2) x)))]
    · simp only [Option.bind_eq_bind, Option.bind_some]
      rw [w.prover.batches, mapM_eq_some_map _ (fun k => (etha, (List.range (nn k)).map fun i =>
        (ff k i, evalPoly (ff k i) etha)))]
      · rfl
      · intro k hk
        obtain ⟨hk1, hk2⟩ := List.mem_filter.1 hk
        rw [w.prover.proverFixed w.polys _ etha hk1 (hfv k hk1 ((inv.fixed k).1 hk2))]
        rfl
    · intro x _
      rw [w.prover.proverTerms w.polys x]
      rfl
  · unfold lpcVerifierItems
    simp only [huniq]
    rw [mapM_eq_some_map _ (fun x => (x, (openedAt keys nn pts x).map fun id =>
      (id, evalPoly (ff id.1 id.2) x)))]
    · simp only [Option.bind_eq_bind, Option.bind_some]
      have hvf := hv2.verifierFixed (Tree := Tree) { v with etha := etha, fixedValues := data } etha (by
        intro k hk hm
        exact hfv k hk ((inv.fixed k).1 ((hfixeq k).trans hm)))
      simp only at hvf
      have hfilter : (keys.filter fun k => v.batchFixed.getD k false) = keys.filter fixed := by
        apply List.filter_congr
        intro k _
        exact (hfixeq k).symm
      rw [hfilter] at hvf
      by_cases hA : anyFixed = true
      · rw [if_pos hA, hvf]
        simp only [Option.bind_some, lpcClaims, hA, if_true]
      · rw [if_neg hA]
        simp only [lpcClaims, hA, Bool.false_eq_true, if_false, List.append_nil]
    · intro x _
      rw [hv2.verifierTerms x]
      rfl
  · intro theta
    obtain ⟨l1, l2, l3⟩ := lpcQuotient_fold theta
      (lpcOwn keys nn ff pts ev'.uniquePoints etha fixed) 1 [0]
    have hdeg : ∀ k ∈ keys, ∀ i < nn k, (ff k i).length ≤ prm.maxDegree + 1 := by
      intro k _ i hi
      have h1 := (hce k i hi _ (List.getElem?_eq_getElem hi)).2
      have h2 := sess.degrees k _ (List.getElem_mem hi)
      omega
    have hbp : ∀ k ∈ keys, ∀ i < nn k, batchPoly (keys.map fun k => (k, P k)) (k, i)
        = (P k)[i]? := by
      intro k hk i _
      simp only [batchPoly]
      rw [find_map_keys keys P k hk]
      rfl
    have hPm : ∀ y, ∀ k ∈ keys, ∀ i < nn k,
        evalPoly ((batchPoly (keys.map fun k => (k, P k)) (k, i)).getD []) y
          = evalPoly (ff k i) y := by
      intro y k hk i hi
      rw [hbp k hk i hi, List.getElem?_eq_getElem hi]
      exact ((hce k i hi _ (List.getElem?_eq_getElem hi)).1 y).symm
    have hptsmem : ∀ x ∈ ev'.uniquePoints, ∃ k i, LpcOp.commit k ∈ hp ∧ i < (P k).length ∧
        x ∈ lpcRequested k i hp := by
      intro x hx
      obtain ⟨k, sets, set', h1, h2, h3⟩ := ((C45_unique_points ev').2 x).1 hx
      rw [w.prover.points] at h1
      obtain ⟨k', hk', he⟩ := List.mem_map.1 h1
      rw [Prod.mk.injEq] at he
      obtain ⟨rfl, rfl⟩ := he
      obtain ⟨i, hi, rfl⟩ := List.mem_map.1 h2
      exact ⟨k', i, (w.keysMem k').1 hk', by simpa using hi, h3⟩
    have hptsout : ∀ x ∈ ev'.uniquePoints, ∀ m, (L.domain n).elem m ≠ x := by
      intro x hx m
      obtain ⟨k, i, h1, h2, h3⟩ := hptsmem x hx
      exact sess.outside k i h1 h2 x h3 m
    have hown : ∀ e ∈ lpcOwn keys nn ff pts ev'.uniquePoints etha fixed,
        (e.1 ∈ ev'.uniquePoints ∨ (∃ k, LpcOp.markFixed k ∈ hp) ∧ e.1 = etha) ∧ ∀ t ∈ e.2, t.2 = evalPoly t.1 e.1 ∧
          t.1.length ≤ prm.maxDegree + 1 := by
      intro e he
      unfold lpcOwn at he
      rcases List.mem_append.1 he with he | he
      · obtain ⟨x, hx, rfl⟩ := List.mem_map.1 he
        refine ⟨Or.inl hx, fun t ht => ?_⟩
        obtain ⟨id, hid, rfl⟩ := List.mem_map.1 ht
        obtain ⟨h1, h2, -⟩ := (mem_openedAt _ _ _ _ _).1 hid
        exact ⟨rfl, hdeg _ h1 _ h2⟩
      · obtain ⟨k, hk, rfl⟩ := List.mem_map.1 he
        obtain ⟨hk1, hk2⟩ := List.mem_filter.1 hk
        refine ⟨Or.inr ⟨⟨k, (inv.fixed k).1 hk2⟩, rfl⟩, fun t ht => ?_⟩
        obtain ⟨i, hi, rfl⟩ := List.mem_map.1 ht
        exact ⟨rfl, hdeg k hk1 i (by simpa using hi)⟩
    have hquot : ∀ y, (∀ k i, LpcOp.commit k ∈ hp → i < (P k).length → y ∉ lpcRequested k i hp) →
        ((∃ k, LpcOp.markFixed k ∈ hp) → y ≠ etha) →
        evalPoly (lpcCombined theta (lpcOwn keys nn ff pts ev'.uniquePoints etha fixed)) y
          = quotientValue (keys.map fun k => (k, P k)) theta y (lpcItems theta 1
            (lpcClaims keys nn ff pts ev'.uniquePoints etha fixed anyFixed)) 1 := by
      intro y hy1 hy2
      have h1 := l3 (fun e he => claimDiff_self theta e.1 e.2
        (fun t ht => ((hown e he).2 t ht).1) 1) y (by
        intro e he
        rcases (hown e he).1 with h | ⟨h, h'⟩
        · obtain ⟨k, i, h2, h3, h4⟩ := hptsmem _ h
          rintro rfl
          exact hy1 k i h2 h3 h4
        · rw [h']; exact hy2 h)
      have h0 : evalPoly ([0] : List F) y = 0 := by simp [evalPoly]
      rw [h0, zero_add] at h1
      unfold lpcCombined
      rw [h1]
      apply lpcOwn_claims
      · intro hA k hk
        cases hfk : fixed k with
        | false => rfl
        | true =>
          have : anyFixed = true := hany.2 ⟨k, (inv.fixed k).1 hfk⟩
          rw [hA] at this; simp at this
      · exact hPm _
    refine ⟨?_, ?_, ?_, hquot⟩
    · intro hnil
      unfold lpcCombined at hnil
      rw [hnil] at l1
      simp at l1
    · exact l2 _ (by omega) (by simp) fun e he t ht => ((hown e he).2 t ht).2
    · refine ⟨sess.adicity, sess.rounds.2.1, sess.domains, ?_, ?_, ?_, ?_, ?_⟩
      · rw [w.forms]
        unfold FriBatches
        generalize keys = ks
        induction ks with
        | nil => exact .nil
        | cons k ks ih => exact .cons ⟨rfl, sess.polys k⟩ ih
      · intro k fs hk
        rw [w.forms] at hk
        obtain ⟨k', hk', he⟩ := List.mem_map.1 hk
        rw [Prod.mk.injEq] at he
        obtain ⟨rfl, rfl⟩ := he
        obtain ⟨D, s0, tree, h1, h2, h3, h4⟩ := inv.trees k' ((w.keysMem k').1 hk')
        have hD := sess.domains 0 sess.rounds.1
        rw [h1, Option.some.injEq] at hD
        rw [hD] at h3
        refine ⟨tree, s0, h2, h3, h4, ?_⟩
        rw [find_map_value, h4]; rfl
      · intro it hit id hid
        obtain ⟨e, he, h1, -⟩ := lpcItems_mem theta _ _ it hit
        rw [h1] at hid
        obtain ⟨t, ht, rfl⟩ := List.mem_map.1 hid
        obtain ⟨h2, h3⟩ := (lpcClaims_points _ _ _ _ _ _ _ _ e he).2 t ht
        exact ⟨_, (hbp _ h2 _ h3).trans (List.getElem?_eq_getElem h3)⟩
      · intro it hit i
        obtain ⟨e, he, -, h1⟩ := lpcItems_mem theta _ _ it hit
        rw [h1]
        have hev : evalPoly [-e.1, 1] ((L.domain n).elem i) = (L.domain n).elem i - e.1 := by
          simp [evalPoly]; ring
        rw [hev]
        apply sub_ne_zero.2
        rcases (lpcClaims_points _ _ _ _ _ _ _ _ e he).1 with h2 | ⟨h2, h3⟩
        · exact hptsout _ h2 i
        · obtain ⟨k, hk⟩ := hany.1 h2
          rw [h3]
          exact sess.ethaOutside k hk i
      · intro i
        refine hquot _ (fun k j h1 h2 h3 => sess.outside k j h1 h2 _ h3 i rfl) ?_
        rintro ⟨k, hk⟩
        exact sess.ethaOutside k hk i

end Crypto3Zk
