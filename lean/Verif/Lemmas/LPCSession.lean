import Verif.Lemmas.LPC

set_option linter.unusedSectionVars false

namespace Crypto3Zk

open Polynomial

variable {F : Type} [Field F] {Tree Root Path S : Type}
variable {L : FftLib F} {A : Nat}

/-- the coefficients of polynomial `i` of batch `k`, as the program computes them -/
def lpcCoeffs (L : FftLib F) (hp : List (LpcOp F)) (k i : Nat) : List F :=
  ((lpcAppended k hp).map fun f => f.final L).getD i []

/-- what the two objects hold in a session -/
structure LpcSessionView (L : FftLib F) (hp : List (LpcOp F)) (P : Nat → List (List F))
    (sp v : LpcScheme F Tree) (ev' : PolysEvaluator F) (keys : List Nat) : Prop where
  keysMem : ∀ k, k ∈ keys ↔ LpcOp.commit k ∈ hp
  nodup : keys.Nodup
  evaluated : sp.ev.evalPolys = some ev'
  polys : ev'.polys = keys.map fun k => (k, (List.range (P k).length).map (lpcCoeffs L hp k))
  prover : LpcView ev' keys (fun k => (P k).length) (lpcCoeffs L hp) fun k i => lpcRequested k i hp
  verifier : v.ev.points = ev'.points
  forms : sp.forms = keys.map fun k => (k, lpcAppended k hp)
  treeKeys : sp.trees.keys = keys

theorem lpc_session_view (M : MerkleLib F Tree Root Path) (prm : FriParams F) (n d : Nat)
    (hp hv : List (LpcOp F)) (P : Nat → List (List F)) (etha : F)
    (sess : LpcSession L prm A n d hp hv P etha) (sp v : LpcScheme F Tree)
    (hsp : runLpc L M prm hp = some sp) (hrv : runLpc L M prm hv = some v) :
    ∃ ev' keys, LpcSessionView L hp P sp v ev' keys := by
  have inv := lpc_run L M prm hp sp hsp
  have vinv := lpc_run L M prm hv v hrv
  have cp := container_run _ sp.ev inv.run
  have cv := container_run _ v.ev vinv.run
  have hlen : ∀ k, (lpcAppended k hp).length = (P k).length := fun k => (sess.polys k).length_eq
  have hnr : ∀ k, noResize k (lpcContainer L hp) := by
    intro k m hm
    exact sess.proverSizes k m ((batchSize_container L k m hp).1 hm)
  have hkeys : ∀ k, k ∈ sp.ev.polys.keys ↔ LpcOp.commit k ∈ hp := by
    intro k
    rw [cp.keys, committed_container]
    refine ⟨fun h => h.elim id ?_, Or.inl⟩
    rintro ⟨fs, hfs⟩
    obtain ⟨gs, hgs⟩ := append_container L k fs hp hfs
    exact sess.allCommitted k gs hgs
  have hpoly : ∀ k ∈ sp.ev.polys.keys, sp.ev.polys.find k
      = some ((List.range (P k).length).map (lpcCoeffs L hp k)) := by
    intro k hk
    have h1 := (OMap.find_isSome_iff sp.ev.polys k).2 hk
    obtain ⟨w, hw⟩ := Option.isSome_iff_exists.1 h1
    have h2 := cp.polys k
    rw [OMap.getD, hw, appended_container] at h2
    rw [hw]
    simp only [Option.getD_some] at h2
    have h3 : (List.range (P k).length).map (lpcCoeffs L hp k) = w := by
      rw [← hlen k, show (lpcAppended k hp).length
        = ((lpcAppended k hp).map fun f => f.final L).length by simp, h2]
      unfold lpcCoeffs
      exact range_map_getD _ []
    rw [h3]
  have hplen : ∀ k, (appended k (lpcContainer L hp)).length = (P k).length := by
    intro k; rw [appended_container, List.length_map, hlen]
  have hpts : ∀ k ∈ sp.ev.polys.keys, sp.ev.points.find k
      = some ((List.range (P k).length).map fun i => lpcRequested k i hp) := by
    intro k hk
    have := cp.points k (hnr k) ((committed_container L k hp).2 ((hkeys k).1 hk))
    rw [this, hplen]
    simp only [requested_container]
  have hpkeys : sp.ev.points.keys = sp.ev.polys.keys := by
    refine strict_ext cp.psorted cp.sorted fun k => ?_
    constructor
    · intro hk
      by_contra hno
      have hnl : ¬ lockedSpec k (lpcContainer L hp) := by
        rintro (h | ⟨m, hm⟩)
        · exact hno ((hkeys k).2 ((committed_container L k hp).1 h))
        · exact hnr k m hm
      exact (OMap.find_eq_none_iff _ _).1 (cp.unlocked k hnl).1 hk
    · intro hk
      exact (OMap.find_isSome_iff _ _).1 (by rw [hpts k hk]; rfl)
  have hvpts : ∀ k ∈ sp.ev.polys.keys, v.ev.points.find k
      = some ((List.range (P k).length).map fun i => lpcRequested k i hp) := by
    intro k hk
    by_cases hcv : LpcOp.commit k ∈ hv
    · obtain ⟨-, hl, hnb⟩ := sess.verifierCommits k hcv
      have h1 := cv.points k (fun m hm => hnb m ((batchSize_container L k m hv).1 hm))
        ((committed_container L k hv).2 hcv)
      rw [h1, appended_container, List.length_map, hl]
      simp only [requested_container, sess.samePoints]
    obtain ⟨m, hm⟩ := (sess.sized k ((hkeys k).1 hk)).resolve_left hcv
    have h1 := cv.sized k m
      (fun h => hcv ((committed_container L k hv).1 h))
      ((batchSize_container L k m hv).2 hm) (fun m' hm' => by
        rw [(sess.sizes k m' ((batchSize_container L k m' hv).1 hm')).2, (sess.sizes k m hm).2])
    rw [h1, (sess.sizes k m hm).2]
    simp only [requested_container, sess.samePoints]
  have hvkeys : v.ev.points.keys = sp.ev.polys.keys := by
    refine strict_ext cv.psorted cp.sorted fun k => ?_
    constructor
    · intro hk
      by_contra hno
      have hnl : ¬ lockedSpec k (lpcContainer L hv) := by
        rintro (h | ⟨m, hm⟩)
        · exact hno ((hkeys k).2 (sess.verifierCommits k ((committed_container L k hv).1 h)).1)
        · exact hno ((hkeys k).2 (sess.sizes k m ((batchSize_container L k m hv).1 hm)).1)
      exact (OMap.find_eq_none_iff _ _).1 (cv.unlocked k hnl).1 hk
    · intro hk
      exact (OMap.find_isSome_iff _ _).1 (by rw [hvpts k hk]; rfl)
  obtain ⟨z, hz, hzf⟩ := PolysEvaluator.evalBatches_spec sp.ev.points sp.ev.polys sp.ev.z cp.sorted
    (by
      intro k fs hfs
      have hk : k ∈ sp.ev.polys.keys := (OMap.find_isSome_iff _ _).1 (by rw [hfs]; rfl)
      rw [hpoly k hk, Option.some.injEq] at hfs
      exact ⟨_, hpts k hk, by simp [← hfs]⟩)
  have hzsorted : OMap.Sorted z := by
    refine evalBatches_sorted _ _ _ z ?_ hz
    rw [cp.z]; exact OMap.sorted_nil
  have hzk : ∀ k ∈ sp.ev.polys.keys, OMap.find z k = some ((List.range (P k).length).map fun i =>
        (lpcRequested k i hp).map (evalPoly (lpcCoeffs L hp k i))) := by
    intro k hk
    rw [hzf k, hpoly k hk]
    simp only [OMap.getD, hpts k hk, Option.getD_some, Option.some.injEq]
    rw [List.zipWith_map, List.zipWith_self]
  have hzkeys : OMap.keys z = sp.ev.polys.keys := by
    refine strict_ext hzsorted cp.sorted fun k => ?_
    constructor
    · intro hk
      by_contra hno
      have := hzf k
      rw [(OMap.find_eq_none_iff sp.ev.polys k).2 hno] at this
      simp only [cp.z] at this
      exact (OMap.find_eq_none_iff z k).1 this hk
    · intro hk
      exact (OMap.find_isSome_iff z k).1 (by rw [hzk k hk]; rfl)
  have hfkeys : sp.forms.keys = sp.ev.polys.keys :=
    strict_ext inv.formsSorted cp.sorted fun k => inv.formKeys k
  have htkeys : sp.trees.keys = sp.ev.polys.keys := by
    refine strict_ext inv.treesSorted cp.sorted fun k => ?_
    rw [hkeys, ← OMap.find_isSome_iff]
    by_cases hk : LpcOp.commit k ∈ hp
    · obtain ⟨_, _, tree, _, _, _, ht⟩ := inv.trees k hk
      simp [hk, ht]
    · simp [hk, inv.absent k hk]
  refine ⟨⟨z, sp.ev.polys, sp.ev.locked, sp.ev.points⟩, sp.ev.polys.keys, hkeys, ?_, ?_, ?_,
    ⟨?_, ?_⟩, ?_, ?_, htkeys⟩
  · exact List.Pairwise.imp (fun h => ne_of_lt h) cp.sorted
  · simp only [PolysEvaluator.evalPolys, hz, Option.bind_eq_bind, Option.bind_some]
  · exact cp.sorted.eq_map _ hpoly
  · show sp.ev.points = _
    rw [← hpkeys]
    exact cp.psorted.eq_map _ (by rw [hpkeys]; exact hpts)
  · show z = _
    rw [← hzkeys]
    exact hzsorted.eq_map _ (by rw [hzkeys]; exact hzk)
  · show v.ev.points = sp.ev.points
    rw [cv.psorted.eq_map (fun k => (List.range (P k).length).map fun i => lpcRequested k i hp)
        (by rw [hvkeys]; exact hvpts),
      cp.psorted.eq_map (fun k => (List.range (P k).length).map fun i => lpcRequested k i hp)
        (by rw [hpkeys]; exact hpts), hvkeys, hpkeys]
  · rw [← hfkeys]
    refine inv.formsSorted.eq_map _ ?_
    intro k hk
    obtain ⟨w, hw⟩ := Option.isSome_iff_exists.1 ((OMap.find_isSome_iff sp.forms k).2 hk)
    have := inv.forms k
    rw [OMap.getD, hw] at this
    rw [hw, ← this]; rfl

/-- evaluating what the program takes for the coefficients -/
theorem lpcCoeffs_eval (hL : L.Lawful A) (n : Nat) (hn : n ≤ A) (hp : List (LpcOp F))
    (P : Nat → List (List F)) (k : Nat)
    (hP : List.Forall₂ (fun f c => f.Has L n c) (lpcAppended k hp) (P k)) (i : Nat)
    (hi : i < (P k).length) : (∀ y, evalPoly (lpcCoeffs L hp k i) y = evalPoly (P k)[i] y) ∧
      (lpcCoeffs L hp k i).length ≤ max 1 (P k)[i].length := by
  have hi' : i < (lpcAppended k hp).length := by rw [hP.length_eq]; exact hi
  have hhas : ((lpcAppended k hp)[i]).Has L n (P k)[i] := hP.get hi' hi
  have hc : lpcCoeffs L hp k i = ((lpcAppended k hp)[i]).final L := by
    unfold lpcCoeffs
    rw [List.getD_eq_getElem?_getD, List.getElem?_map, List.getElem?_eq_getElem hi']
    rfl
  rw [hc]
  generalize (lpcAppended k hp)[i] = f at hhas
  generalize (P k)[i] = c at hhas
  cases f with
  | coeff c' =>
    obtain ⟨rfl, -⟩ := hhas
    exact ⟨fun _ => rfl, by simp [FriPoly.final]⟩
  | dfs w =>
    obtain ⟨m, hm, rfl, hl⟩ := hhas
    obtain ⟨-, h2, h3⟩ := hL.coefficients m (hm.trans hn) c hl
    exact ⟨h3, h2⟩

theorem find_map_value {V W : Type} (m : OMap V) (φ : V → W) (k : Nat) :
    OMap.find (m.map fun e => (e.1, φ e.2)) k = (m.find k).map φ := by
  induction m with
  | nil => rfl
  | cons e m ih =>
    obtain ⟨a, w⟩ := e
    simp only [List.map_cons, OMap.find]
    split_ifs
    · rfl
    · exact ih

theorem mem_openedAt [DecidableEq F] (keys : List Nat) (n : Nat → Nat) (pts : Nat → Nat → List F)
    (x : F) (id : Nat × Nat) :
    id ∈ openedAt keys n pts x ↔ id.1 ∈ keys ∧ id.2 < n id.1 ∧ x ∈ pts id.1 id.2 := by
  simp only [openedAt, List.mem_flatMap, List.mem_range]
  constructor
  · rintro ⟨k, hk, i, hi, h⟩
    split_ifs at h with hx
    · simp only [List.mem_singleton] at h
      subst h
      exact ⟨hk, hi, hx⟩
    · simp at h
  · rintro ⟨h1, h2, h3⟩
    exact ⟨id.1, h1, id.2, h2, by simp [h3]⟩

/-- the opening points of the verifier with the polynomials and the true values -/
def lpcClaims [DecidableEq F] (keys : List Nat) (n : Nat → Nat) (f pts : Nat → Nat → List F)
    (points : List F) (etha : F) (fixed : Nat → Bool) (anyFixed : Bool) :
    List (F × List ((Nat × Nat) × F)) :=
  (points.map fun x => (x, (openedAt keys n pts x).map fun id => (id, evalPoly (f id.1 id.2) x))) ++
    if anyFixed then [(etha, (keys.filter fixed).flatMap fun k =>
      (List.range (n k)).map fun i => ((k, i), evalPoly (f k i) etha))] else []

/-- the prover's items -/
def lpcOwn [DecidableEq F] (keys : List Nat) (n : Nat → Nat) (f pts : Nat → Nat → List F)
    (points : List F) (etha : F) (fixed : Nat → Bool) : List (F × List (List F × F)) :=
  (points.map fun x => (x, (openedAt keys n pts x).map fun id =>
      (f id.1 id.2, evalPoly (f id.1 id.2) x))) ++
    (keys.filter fixed).map fun k => (etha, (List.range (n k)).map fun i =>
      (f k i, evalPoly (f k i) etha))

/-- The prover's combined quotient and the verifier's combination agree. -/
theorem lpcOwn_claims [DecidableEq F] (keys : List Nat) (n : Nat → Nat) (f pts : Nat → Nat → List F)
    (points : List F) (etha : F) (fixed : Nat → Bool) (anyFixed : Bool)
    (hany : anyFixed = false → ∀ k ∈ keys, fixed k = false)
    (Pm : OMap (List (List F))) (y theta : F)
    (hPm : ∀ k ∈ keys, ∀ i < n k, evalPoly ((batchPoly Pm (k, i)).getD []) y = evalPoly (f k i) y) :
    claimQuotient theta y 1 (lpcOwn keys n f pts points etha fixed)
      = quotientValue Pm theta y
        (lpcItems theta 1 (lpcClaims keys n f pts points etha fixed anyFixed)) 1 := by
  rw [quotientValue_lpcItems]
  unfold lpcOwn lpcClaims
  rw [List.map_append, claimQuotient_append, claimQuotient_append]
  have hterm : ∀ (ids : List (Nat × Nat)) (val : Nat × Nat → F), (∀ id ∈ ids, id.1 ∈ keys ∧ id.2 < n id.1) →
      List.Forall₂ (fun s t => evalPoly s.1 y = evalPoly t.1 y ∧ s.2 = t.2)
        (ids.map fun id => (f id.1 id.2, val id)) (resolveTerms Pm (ids.map fun id => (id, val id))) := by
    intro ids val hids
    induction ids with
    | nil => exact .nil
    | cons id ids ih =>
      refine .cons ⟨?_, rfl⟩ (ih fun i hi => hids i (by simp [hi]))
      obtain ⟨h1, h2⟩ := hids id (by simp)
      exact (hPm id.1 h1 id.2 h2).symm
  have hfirst : List.Forall₂ (fun (s t : F × List (List F × F)) => s.1 = t.1 ∧
      List.Forall₂ (fun s t => evalPoly s.1 y = evalPoly t.1 y ∧ s.2 = t.2) s.2 t.2)
      (points.map fun x => (x, (openedAt keys n pts x).map fun id =>
        (f id.1 id.2, evalPoly (f id.1 id.2) x)))
      ((points.map fun x => (x, (openedAt keys n pts x).map fun id =>
        (id, evalPoly (f id.1 id.2) x))).map fun e => (e.1, resolveTerms Pm e.2)) := by
    induction points with
    | nil => exact .nil
    | cons x points ih =>
      refine .cons ⟨rfl, hterm _ (fun id => evalPoly (f id.1 id.2) x) ?_⟩ ih
      intro id hid
      exact ⟨((mem_openedAt _ _ _ _ _).1 hid).1, ((mem_openedAt _ _ _ _ _).1 hid).2.1⟩
  have hlen : ((points.map fun x => (x, (openedAt keys n pts x).map fun id =>
        (f id.1 id.2, evalPoly (f id.1 id.2) x))).map fun e => e.2.length)
      = (((points.map fun x => (x, (openedAt keys n pts x).map fun id =>
        (id, evalPoly (f id.1 id.2) x))).map fun e => (e.1, resolveTerms Pm e.2)).map
          fun e => e.2.length) := by
    simp [resolveTerms, Function.comp_def]
  rw [claimQuotient_congr theta y hfirst, hlen]
  congr 1
  generalize (1 : F) * theta ^ _ = acc
  have hmerge := claimQuotient_merge theta y etha ((keys.filter fixed).map fun k =>
    (List.range (n k)).map fun i => (f k i, evalPoly (f k i) etha)) acc
  rw [List.map_map] at hmerge
  have hcomp : ((keys.filter fixed).map fun k => (etha, (List.range (n k)).map fun i =>
      (f k i, evalPoly (f k i) etha))) = (keys.filter fixed).map ((fun ts => (etha, ts)) ∘ fun k =>
        (List.range (n k)).map fun i => (f k i, evalPoly (f k i) etha)) := rfl
  rw [hcomp, hmerge]
  cases hA : anyFixed with
  | false =>
    have hnil : keys.filter fixed = [] := by
      rw [List.filter_eq_nil_iff]
      intro k hk
      simp [hany hA k hk]
    simp [hnil, claimQuotient, claimDiff]
  | true =>
    simp only [if_true, List.map_cons, List.map_nil]
    apply claimQuotient_congr
    refine List.Forall₂.cons ⟨?_, ?_⟩ List.Forall₂.nil
    · rfl
    have h1 := hterm ((keys.filter fixed).flatMap fun k => (List.range (n k)).map fun i => (k, i))
      (fun id => evalPoly (f id.1 id.2) etha) (by
        intro id hid
        obtain ⟨k, hk, hid⟩ := List.mem_flatMap.1 hid
        obtain ⟨i, hi, rfl⟩ := List.mem_map.1 hid
        exact ⟨(List.mem_filter.1 hk).1, by simpa using hi⟩)
    simp only [List.map_flatMap, List.map_map, Function.comp_def] at h1
    rw [← List.flatMap_def]
    exact h1

theorem lpcClaims_points [DecidableEq F] (keys : List Nat) (n : Nat → Nat)
    (f pts : Nat → Nat → List F) (points : List F) (etha : F) (fixed : Nat → Bool) (anyFixed : Bool)
    (e : F × List ((Nat × Nat) × F))
    (he : e ∈ lpcClaims keys n f pts points etha fixed anyFixed) :
    (e.1 ∈ points ∨ anyFixed = true ∧ e.1 = etha) ∧
      ∀ t ∈ e.2, t.1.1 ∈ keys ∧ t.1.2 < n t.1.1 := by
  unfold lpcClaims at he
  rcases List.mem_append.1 he with he | he
  · obtain ⟨x, hx, rfl⟩ := List.mem_map.1 he
    refine ⟨Or.inl hx, ?_⟩
    intro t ht
    obtain ⟨id, hid, rfl⟩ := List.mem_map.1 ht
    exact ⟨((mem_openedAt _ _ _ _ _).1 hid).1, ((mem_openedAt _ _ _ _ _).1 hid).2.1⟩
  · split_ifs at he with hA
    · simp only [List.mem_singleton] at he
      subst he
      refine ⟨Or.inr ⟨hA, rfl⟩, ?_⟩
      intro t ht
      obtain ⟨k, hk, ht⟩ := List.mem_flatMap.1 ht
      obtain ⟨i, hi, rfl⟩ := List.mem_map.1 ht
      exact ⟨(List.mem_filter.1 hk).1, by simpa using hi⟩
    · simp at he

end Crypto3Zk
