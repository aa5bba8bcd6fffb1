import Verif.Lemmas.LPCSetup
import Verif.Props.FRI

/-!
# C44: the LPC commitment scheme
-/

namespace Crypto3Zk

set_option linter.unusedSectionVars false

open Polynomial

variable {F : Type} [Field F] {Tree Root Path S : Type} {L : FftLib F} {A : Nat}

/-! ## the prover's quotient is the verifier's combination -/

/-- **C44**: whatever batches, points and fixed batches the two sides agree on, the prover's combined
quotient has, at every point outside the opening points, the value the verifier computes from the
polynomials' values there and the claimed evaluations. It is a polynomial within the degree bound. -/
theorem C44_quotient [DecidableEq F] (hL : L.Lawful A) (M : MerkleLib F Tree Root Path)
    (prm : FriParams F) (n d : Nat) (hp hv : List (LpcOp F)) (P : Nat → List (List F)) (etha : F)
    (sess : LpcSession L prm A n d hp hv P etha) (sp v : LpcScheme F Tree)
    (hsp : runLpc L M prm hp = some sp) (hrv : runLpc L M prm hv = some v)
    (data : OMap (List F))
    (hdata : ∀ k, LpcOp.markFixed k ∈ hp → LpcOp.commit k ∈ hp →
      data.find k = some ((P k).map fun c => evalPoly c etha)) :
    ∃ (ev' : PolysEvaluator F) (own : List (F × List (List F × F)))
      (claims : List (F × List ((Nat × Nat) × F))) (batches : OMap (List (List F))),
      sp.ev.evalPolys = some ev' ∧
      lpcProverItems { sp with etha := etha, fixedValues := data } ev' = some own ∧
      lpcVerifierItems { v with etha := etha, fixedValues := data } ev'.z = some claims ∧
      (∀ k cs, batches.find k = some cs ↔ LpcOp.commit k ∈ hp ∧ cs = P k) ∧
      ∀ theta, (lpcCombined theta own).length ≤ prm.maxDegree + 1 ∧
        ∀ y, (∀ k i, LpcOp.commit k ∈ hp → i < (P k).length → y ∉ lpcRequested k i hp) →
          ((∃ k, LpcOp.markFixed k ∈ hp) → y ≠ etha) →
          evalPoly (lpcCombined theta own) y =
            quotientValue batches theta y (lpcItems theta 1 claims) 1 := by
  obtain ⟨ev', keys, own, claims, w, h1, h2, h3⟩ :=
    lpc_fri_setup hL M prm n d hp hv P etha sess sp v hsp hrv data hdata
  refine ⟨ev', own, claims, keys.map fun k => (k, P k), w.evaluated, h1, h2, ?_, fun theta =>
    ⟨(h3 theta).2.1, (h3 theta).2.2.2⟩⟩
  intro k cs
  by_cases hk : k ∈ keys
  · rw [find_map_keys keys P k hk]
    simp [← w.keysMem, hk, eq_comm]
  · have : OMap.find (keys.map fun k => (k, P k)) k = none := by
      rw [OMap.find_eq_none_iff, keys_map keys P]
      exact hk
    rw [this]
    simp [← w.keysMem, hk]

/-- **C44**: the evaluations in the prover's proof are the true ones. -/
theorem C44_true_evaluations [DecidableEq F] (hL : L.Lawful A) (M : MerkleLib F Tree Root Path)
    (prm : FriParams F) (n d : Nat) (hp hv : List (LpcOp F)) (P : Nat → List (List F)) (etha : F)
    (sess : LpcSession L prm A n d hp hv P etha) (sp v : LpcScheme F Tree)
    (hsp : runLpc L M prm hp = some sp) (hrv : runLpc L M prm hv = some v)
    (T : FriTranscript S F Root) (dfs : Bool) (fuel nonce : Nat) (e : F) (data : OMap (List F))
    (st st' : S) (proof : EvalStorage F × FriProof F Root Path)
    (h : LpcScheme.proofEval L M T prm dfs fuel nonce { sp with etha := e, fixedValues := data } st
      = some (proof, st')) (k i j : Nat) (hk : LpcOp.commit k ∈ hp) (c : List F)
    (hc : (P k)[i]? = some c) (x : F) (hx : (lpcRequested k i hp)[j]? = some x) :
    proof.1.get k i j = some (evalPoly c x) := by
  obtain ⟨ev', keys, w⟩ := lpc_session_view M prm n d hp hv P etha sess sp v hsp hrv
  have hz : proof.1 = ev'.z := by
    unfold LpcScheme.proofEval at h
    simp only [w.evaluated, Option.bind_eq_bind, Option.bind_some] at h
    split_ifs at h with hlen
    · simp only [Option.bind_eq_some_iff] at h
      obtain ⟨_, _, _, _, _, _, _, _, _, _, h⟩ := h
      simp only [Option.some.injEq, Prod.mk.injEq] at h
      rw [← h.1]
  obtain ⟨hi, rfl⟩ := List.getElem?_eq_some_iff.1 hc
  rw [hz, w.prover.get ((w.keysMem k).2 hk) hi hx,
    (lpcCoeffs_eval hL n sess.adicity hp P k (sess.polys k) i hi).1 x]

theorem lpcForm_has (n : Nat) (dfs : Bool) (c : List F) (h : c.length ≤ 2 ^ n) :
    (lpcForm L dfs c).Has L n c := by
  cases dfs with
  | false => exact ⟨rfl, h⟩
  | true =>
    exact ⟨Nat.clog 2 c.length, Nat.clog_le_of_le_pow h, rfl, Nat.le_pow_clog (by norm_num) _⟩

/-- **C44** (completeness): the verifier accepts every proof the prover makes, and both leave the
transcript in the same state. -/
theorem C44_honest_accepted [DecidableEq F] [DecidableEq Root] (hL : L.Lawful A)
    (M : MerkleLib F Tree Root Path) (hM : M.Lawful) (T : FriTranscript S F Root)
    (prm : FriParams F) (n d : Nat) (hp hv : List (LpcOp F)) (P : Nat → List (List F)) (etha : F)
    (sess : LpcSession L prm A n d hp hv P etha) (sp v : LpcScheme F Tree)
    (hsp : runLpc L M prm hp = some sp) (hrv : runLpc L M prm hv = some v)
    (data : OMap (List F))
    (hdata : ∀ k, LpcOp.markFixed k ∈ hp → LpcOp.commit k ∈ hp →
      data.find k = some ((P k).map fun c => evalPoly c etha))
    (dfs : Bool) (fuel nonce : Nat) (st st' : S) (proof : EvalStorage F × FriProof F Root Path)
    (h : LpcScheme.proofEval L M T prm dfs fuel nonce
      { sp with etha := etha, fixedValues := data } st = some (proof, st')) :
    LpcScheme.verifyEval M T prm { v with etha := etha, fixedValues := data } proof
      (sp.trees.map fun e => (e.1, M.root e.2)) st = some (true, st') := by
  obtain ⟨ev', keys, own, claims, w, h1, h2, h3⟩ :=
    lpc_fri_setup hL M prm n d hp hv P etha sess sp v hsp hrv data hdata
  unfold LpcScheme.proofEval at h
  simp only [w.evaluated, Option.bind_eq_bind, Option.bind_some, h1] at h
  split_ifs at h with hlen
  set st1 := sp.trees.foldl (fun st e => T.absorbRoot st (M.root e.2)) st with hst1
  have hst : (sp.trees.map fun e => (e.1, M.root e.2)).foldl (fun st e => T.absorbRoot st e.2) st
      = st1 := by
    rw [List.foldl_map]
  obtain ⟨c1, c2, c3, _⟩ := h3 (T.challenge st1).2
  simp only [Option.bind_eq_some_iff] at h
  obtain ⟨D, hD, s0, hs0, ⟨qTree, q⟩, hpre, ⟨fp, st2⟩, hfp, h⟩ := h
  simp only [Option.some.injEq, Prod.mk.injEq] at h
  obtain ⟨rfl, rfl⟩ := h
  have hD' := sess.domains 0 sess.rounds.1
  rw [hD, Option.some.injEq, Nat.sub_zero] at hD'
  subst hD'
  have hc2 : (lpcCombined (T.challenge st1).2 own).length ≤ 2 ^ n :=
    c2.trans (by rw [sess.degree.1]; exact Nat.pow_le_pow_right (by norm_num) sess.degree.2)
  have := C43_honest_accepted hL M hM T prm n d _ _ _ _ _ _ _ c3 sess.degree.1 sess.rounds.2.2 c1
    (by omega) _ q qTree s0 hs0 (lpcForm_has n dfs _ hc2) hpre fuel nonce _ _ fp hfp
  unfold LpcScheme.verifyEval
  simp only [hst, h2, Option.bind_eq_bind, Option.bind_some]
  exact this

/-- **C44** (definedness): the prover makes a proof whenever the step list is a valid one, the
challenges are nonzero, and the proof of work (if used) is found. -/
theorem C44_prover_defined [DecidableEq F] [DecidableEq Root] [Fintype F] (hL : L.Lawful A)
    (M : MerkleLib F Tree Root Path) (hM : M.Lawful) (T : FriTranscript S F Root)
    (prm : FriParams F) (n d : Nat) (hp hv : List (LpcOp F)) (P : Nat → List (List F)) (etha : F)
    (sess : LpcSession L prm A n d hp hv P etha) (sp v : LpcScheme F Tree)
    (hsp : runLpc L M prm hp = some sp) (hrv : runLpc L M prm hv = some v)
    (data : OMap (List F))
    (hdata : ∀ k, LpcOp.markFixed k ∈ hp → LpcOp.commit k ∈ hp →
      data.find k = some ((P k).map fun c => evalPoly c etha))
    (hsteps : checkStepList prm.stepList prm.r = true)
    (hcard : Fintype.card F = prm.modulus) (hdvd : 2 ^ n ∣ prm.modulus - 1)
    (hch : ∀ st, (T.challenge st).2 ≠ 0) (dfs : Bool)
    (fuel nonce : Nat) (hgrind : prm.useGrinding = true → ∀ st,
      (powGenerate T.toIntTranscript 32 prm.grindingParameter fuel st nonce).isSome) (st : S) :
    (LpcScheme.proofEval L M T prm dfs fuel nonce
      { sp with etha := etha, fixedValues := data } st).isSome := by
  obtain ⟨ev', keys, own, claims, w, h1, h2, h3⟩ :=
    lpc_fri_setup hL M prm n d hp hv P etha sess sp v hsp hrv data hdata
  have hlen : ev'.points.length = ev'.polys.length ∧ ev'.points.length = ev'.z.length := by
    rw [w.prover.points, w.polys, w.prover.z]
    simp
  have hD := sess.domains 0 sess.rounds.1
  rw [Nat.sub_zero] at hD
  unfold LpcScheme.proofEval
  simp only [w.evaluated, Option.bind_eq_bind, Option.bind_some, h1, if_pos hlen, hD]
  set st1 := sp.trees.foldl (fun st e => T.absorbRoot st (M.root e.2)) st with hst1
  obtain ⟨c1, c2, c3, _⟩ := h3 (T.challenge st1).2
  have hc2 : (lpcCombined (T.challenge st1).2 own).length ≤ 2 ^ n :=
    c2.trans (by rw [sess.degree.1]; exact Nat.pow_le_pow_right (by norm_num) sess.degree.2)
  obtain ⟨s0, rest, hsl, hs1, hs2⟩ : ∃ s0 rest, prm.stepList = s0 :: rest ∧ 1 ≤ s0 ∧ s0 ≤ n := by
    unfold checkStepList at hsteps
    cases hs : prm.stepList with
    | nil => simp [hs] at hsteps
    | cons s0 rest =>
      rw [hs] at hsteps
      simp only [List.isEmpty_cons, Bool.false_eq_true, if_false] at hsteps
      split_ifs at hsteps with g1 g2
      refine ⟨s0, rest, rfl, ?_, ?_⟩
      · simp only [List.any_cons, Bool.or_eq_true, decide_eq_true_eq, not_or] at g1
        omega
      · push Not at g2
        have := sess.rounds
        simp only [List.sum_cons] at g2
        omega
  have hs0 : prm.stepList[0]? = some s0 := by rw [hsl]; rfl
  have hhas := lpcForm_has (L := L) n dfs _ hc2
  obtain ⟨q, qTree, hpre⟩ : ∃ q qTree, friPrecommit L M (lpcForm L dfs
      (lpcCombined (T.challenge st1).2 own)) (L.domain n) s0 = some (qTree, q) := by
    obtain ⟨m, rfl⟩ : ∃ m, n = m + 1 := ⟨n - 1, by omega⟩
    obtain ⟨s, rfl⟩ : ∃ s, s0 = s + 1 := ⟨s0 - 1, by omega⟩
    have := friLeaves_eq (L := L) m s (by omega) [lpcCombined (T.challenge st1).2 own]
    simp only [List.map_cons, List.map_nil] at this
    unfold friPrecommit
    simp only [has_on hL (m + 1) sess.adicity _ _ hhas, Option.bind_eq_bind, Option.bind_some,
      show (L.domain (m + 1)).size = 2 ^ (m + 1) from rfl, this]
    exact ⟨_, _, rfl⟩
  have := C43_prover_defined hL M hM T prm n _ _ _ _ _ _ _ c3 hsteps c1 hc2 _ q qTree s0 hs0 hhas
    hpre hcard hdvd hch fuel nonce hgrind (T.challenge st1).1
  obtain ⟨r, hr⟩ := Option.isSome_iff_exists.mp this
  simp only [hs0, Option.bind_some, hpre, hr, Option.isSome_some]

theorem preprocess_fold (polys : OMap (List (List F))) (x : F) (l : OMap Bool) :
    ∀ (m r : OMap (List F)), l.foldlM (fun (m : OMap (List F)) (e : Nat × Bool) =>
        if e.2 then do
          let ps ← polys.find e.1
          some (m.insert e.1 (ps.map fun f => evalPoly f x))
        else some m) m = some r →
      ∀ k, ((k, true) ∈ l → ∃ ps, polys.find k = some ps ∧
        r.find k = some (ps.map fun f => evalPoly f x)) ∧
        ((k, true) ∉ l → r.find k = m.find k) := by
  induction l with
  | nil =>
    intro m r h k
    simp only [List.foldlM_nil, Option.pure_def, Option.some.injEq] at h
    subst h
    simp
  | cons e l ih =>
    intro m r h k
    obtain ⟨k', b⟩ := e
    rw [List.foldlM_cons] at h
    cases b with
    | false =>
      simp only [Bool.false_eq_true, if_false, Option.bind_eq_bind, Option.bind_some] at h
      have := ih m r h k
      simpa using this
    | true =>
      simp only [if_true, Option.bind_eq_bind] at h
      cases hp : polys.find k' with
      | none => rw [hp] at h; simp at h
      | some ps =>
        simp only [hp, Option.bind_some] at h
        obtain ⟨h1, h2⟩ := ih _ r h k
        rw [OMap.find_insert] at h2
        by_cases hk : k = k'
        · subst hk
          refine ⟨fun _ => ?_, fun hn => absurd (by simp) hn⟩
          by_cases hm : (k, true) ∈ l
          · exact h1 hm
          · exact ⟨ps, hp, by rw [h2 hm, if_pos rfl]⟩
        · rw [if_neg hk] at h2
          simpa [hk] using And.intro h1 h2

/-- **C44** (preprocessing): `preprocess` and `setup`, started on the same transcript, leave it in the
same state, fix one point, and give the values there of the polynomials of the batches marked as
fixed. -/
theorem C44_preprocess (hL : L.Lawful A) (M : MerkleLib F Tree Root Path) (T : FriTranscript S F Root)
    (prm : FriParams F) (n : Nat) (hn : n ≤ A) (h0 : List (LpcOp F)) (s0 s1 : LpcScheme F Tree)
    (hrun : runLpc L M prm h0 = some s0) (st st' : S) (data : OMap (List F))
    (h : s0.preprocess T st = some (st', data)) :
    (s1.setup T st data).1 = st' ∧ (s1.setup T st data).2.fixedValues = data ∧
    ∀ k cs, LpcOp.markFixed k ∈ h0 →
      List.Forall₂ (fun f c => f.Has L n c) (lpcAppended k h0) cs →
      data.find k = some (cs.map fun c => evalPoly c (s1.setup T st data).2.etha) := by
  have inv := lpc_run L M prm h0 s0 hrun
  have cp := container_run _ s0.ev inv.run
  unfold LpcScheme.preprocess at h
  simp only [Option.bind_eq_bind, Option.bind_eq_some_iff, Option.some.injEq, Prod.mk.injEq] at h
  obtain ⟨r, hr, rfl, rfl⟩ := h
  refine ⟨rfl, rfl, ?_⟩
  intro k cs hk hcs
  have hf := (inv.fixed k).2 hk
  have hmem : (k, true) ∈ s0.batchFixed := by
    apply OMap.find_some_mem
    rw [OMap.getD] at hf
    cases hb : s0.batchFixed.find k with
    | none => rw [hb] at hf; simp at hf
    | some b => rw [hb] at hf; simp at hf; rw [hf]
  obtain ⟨ps, hps, hfind⟩ := (preprocess_fold s0.ev.polys _ _ _ _ hr k).1 hmem
  rw [hfind]
  have h2 := cp.polys k
  rw [OMap.getD, hps, appended_container, Option.getD_some] at h2
  subst h2
  show some _ = some (cs.map fun c => evalPoly c (T.challenge st).2)
  congr 1
  generalize lpcAppended k h0 = fs at hcs
  induction hcs with
  | nil => rfl
  | @cons f c _ _ hfc _ ih =>
    simp only [List.map_cons, ih, List.cons.injEq, and_true]
    cases f with
    | coeff c' =>
      obtain ⟨rfl, -⟩ := hfc
      rfl
    | dfs w =>
      obtain ⟨m, hm, rfl, hl⟩ := hfc
      exact (hL.coefficients m (hm.trans hn) c hl).2.2 _

/-! ## the quotient is a polynomial exactly for true claims -/

/-- The claims are those of a proof: evaluations of polynomials of the batches, at distinct points. -/
structure ClaimsOf (P : OMap (List (List F))) (b : Nat) (claims : List (F × List ((Nat × Nat) × F))) :
    Prop where
  distinct : (claims.map Prod.fst).Nodup
  exist : ∀ e ∈ claims, ∀ t ∈ e.2, ∃ c, batchPoly P t.1 = some c ∧ c.length ≤ b

/-- The claimed evaluation of one polynomial is its true one. -/
def trueClaim (P : OMap (List (List F))) (x : F) (t : (Nat × Nat) × F) : Prop :=
  ∃ c, batchPoly P t.1 = some c ∧ t.2 = evalPoly c x

theorem claimValue_eq (theta : F) (ts : List ((Nat × Nat) × F)) (acc : F) :
    claimValue theta acc ts = acc * evalPoly (ts.map Prod.snd) theta := by
  induction ts generalizing acc with
  | nil => simp [claimValue]
  | cons t ts ih =>
    obtain ⟨id, u⟩ := t
    rw [claimValue, ih, List.map_cons, evalPoly_cons]
    ring

theorem resolve_lengths {P : OMap (List (List F))} {b : Nat}
    {claims : List (F × List ((Nat × Nat) × F))} (h : ClaimsOf P b claims) :
    ∀ e ∈ claims.map fun e => (e.1, resolveTerms P e.2), ∀ t ∈ e.2, t.1.length ≤ b := by
  intro e he t ht
  obtain ⟨e', he', rfl⟩ := List.mem_map.1 he
  obtain ⟨t', ht', rfl⟩ := List.mem_map.1 ht
  obtain ⟨c, hc, hl⟩ := h.exist e' he' t' ht'
  simpa [hc] using hl

/-- **C44** (exactness, for one challenge): the values the verifier combines, taken at enough points
outside the opening points, are those of a polynomial within the degree bound exactly when at every
opening point the `theta`-combination of the claimed evaluations is that of the true ones. -/
theorem C44_polynomial_iff (theta : F) (htheta : theta ≠ 0) (P : OMap (List (List F))) (b : Nat)
    (hb : 1 ≤ b) (claims : List (F × List ((Nat × Nat) × F))) (hc : ClaimsOf P b claims)
    (Y : Finset F) (hY : ∀ e ∈ claims, e.1 ∉ Y) (hcard : b + claims.length ≤ Y.card) :
    (∃ q : List F, q.length ≤ b ∧
      ∀ y ∈ Y, evalPoly q y = quotientValue P theta y (lpcItems theta 1 claims) 1) ↔
    ∀ e ∈ claims, thetaSum P theta e.1 (e.2.map Prod.fst) 1 =
      evalPoly (e.2.map Prod.snd) theta := by
  set items := claims.map fun e => (e.1, resolveTerms P e.2) with hitems
  have hfst : items.map Prod.fst = claims.map Prod.fst := by
    rw [hitems, List.map_map]; rfl
  have hdiff : (∀ e ∈ claims, thetaSum P theta e.1 (e.2.map Prod.fst) 1 =
      evalPoly (e.2.map Prod.snd) theta) ↔ ∀ e ∈ items, claimDiff theta e.1 1 e.2 = 0 := by
    rw [hitems]
    simp only [List.mem_map, forall_exists_index, and_imp, forall_apply_eq_imp_iff₂]
    refine forall₂_congr fun e _ => ?_
    rw [← thetaSum_sub, sub_eq_zero]
    rw [claimValue_eq, one_mul]
  rw [hdiff]
  have hYi : ∀ e ∈ items, ∀ y ∈ Y, y ≠ e.1 := by
    intro e he y hy heq
    obtain ⟨e', he', rfl⟩ := List.mem_map.1 he
    exact hY e' he' (heq ▸ hy)
  constructor
  · rintro ⟨q, hq, hval⟩
    have hroot : toPoly q * vanish (items.map Prod.fst) - claimNumerator theta 1 items = 0 := by
      refine Polynomial.eq_zero_of_degree_lt_of_eval_finset_eq_zero Y ?_ ?_
      · refine lt_of_lt_of_le (lt_of_le_of_lt (degree_sub_le _ _) (max_lt ?_
          (degree_claimNumerator theta b hb items (resolve_lengths hc) 1)))
          (by rw [show items.length = claims.length by simp [hitems]]; exact_mod_cast hcard)
        rw [degree_mul, degree_vanish, List.length_map]
        have h1 := degree_toPoly q
        cases hd : (toPoly q).degree with
        | bot => rw [WithBot.bot_add]; exact WithBot.bot_lt_coe _
        | coe m =>
          rw [hd] at h1
          have hm : m < q.length := WithBot.coe_lt_coe.1 h1
          have : m + items.length < b + items.length := by omega
          exact WithBot.coe_lt_coe.2 this
      · intro y hy
        rw [eval_sub, eval_mul, eval_toPoly, hval y hy, quotientValue_lpcItems,
          eval_claimNumerator theta y items (fun e he => hYi e he y hy), sub_self]
    exact claimDiff_of_dvd theta htheta items (by rw [hfst]; exact hc.distinct) 1 one_ne_zero
      ⟨toPoly q, by rw [← sub_eq_zero.1 hroot, mul_comm]⟩
  · intro h
    obtain ⟨-, h2, h3⟩ := lpcQuotient_fold theta items 1 [0]
    refine ⟨_, h2 b hb (by simpa using hb) (resolve_lengths hc), fun y hy => ?_⟩
    rw [h3 h y fun e he => hYi e he y hy, quotientValue_lpcItems]
    simp [← hitems]

/-- **C44** (exactness, true claims): if every claimed evaluation is true, the combination is a
polynomial within the degree bound, for every challenge. -/
theorem C44_polynomial_of_true (P : OMap (List (List F))) (b : Nat) (hb : 1 ≤ b)
    (claims : List (F × List ((Nat × Nat) × F))) (hc : ClaimsOf P b claims)
    (htrue : ∀ e ∈ claims, ∀ t ∈ e.2, trueClaim P e.1 t) (theta : F) :
    ∃ q : List F, q.length ≤ b ∧ ∀ y, (∀ e ∈ claims, y ≠ e.1) →
      evalPoly q y = quotientValue P theta y (lpcItems theta 1 claims) 1 := by
  obtain ⟨-, h2, h3⟩ := lpcQuotient_fold theta (claims.map fun e => (e.1, resolveTerms P e.2)) 1 [0]
  refine ⟨_, h2 b hb (by simpa using hb) (resolve_lengths hc), fun y hy => ?_⟩
  rw [h3 ?_ y ?_, quotientValue_lpcItems]
  · simp
  · intro e he
    obtain ⟨e', he', rfl⟩ := List.mem_map.1 he
    apply claimDiff_self
    intro t ht
    obtain ⟨t', ht', rfl⟩ := List.mem_map.1 ht
    obtain ⟨c, hc, hv⟩ := htrue e' he' t' ht'
    simp [hc, hv]
  · intro e he
    obtain ⟨e', he', rfl⟩ := List.mem_map.1 he
    exact hy e' he'

/-- **C44** (exactness, a false claim): if some claimed evaluation at a point is false, at most as many
challenges as there are claims at that point make the combination a polynomial within the degree
bound. -/
theorem C44_false_claim [Fintype F] [DecidableEq F] (P : OMap (List (List F))) (b : Nat)
    (hb : 1 ≤ b) (claims : List (F × List ((Nat × Nat) × F))) (hc : ClaimsOf P b claims)
    (Y : Finset F) (hY : ∀ e ∈ claims, e.1 ∉ Y) (hcard : b + claims.length ≤ Y.card)
    (e : F × List ((Nat × Nat) × F)) (he : e ∈ claims) (t : (Nat × Nat) × F) (ht : t ∈ e.2)
    (hfalse : ¬ trueClaim P e.1 t) (bad : Finset F)
    (hbad : ∀ theta ∈ bad, ∃ q : List F, q.length ≤ b ∧
      ∀ y ∈ Y, evalPoly q y = quotientValue P theta y (lpcItems theta 1 claims) 1) :
    bad.card ≤ e.2.length := by
  set errs := (resolveTerms P e.2).map fun s => evalPoly s.1 e.1 - s.2 with herrs
  have hne : toPoly errs ≠ 0 := by
    intro h0
    have hz := (polyIsZero_iff errs).2 h0
    simp only [polyIsZero, List.all_eq_true, beq_iff_eq] at hz
    obtain ⟨c, hcp, -⟩ := hc.exist e he t ht
    have hmem : evalPoly c e.1 - t.2 ∈ errs := by
      rw [herrs]
      refine List.mem_map.2 ⟨(c, t.2), List.mem_map.2 ⟨t, ht, by simp [hcp]⟩, rfl⟩
    exact hfalse ⟨c, hcp, (sub_eq_zero.1 (hz _ hmem)).symm⟩
  have hlen : errs.length = e.2.length := by simp [herrs, resolveTerms]
  have hsub : bad.erase 0 ⊆ (toPoly errs).roots.toFinset := by
    intro theta hth
    obtain ⟨hth0, hth⟩ := Finset.mem_erase.1 hth
    have h1 := (C44_polynomial_iff theta hth0 P b hb claims hc Y hY hcard).1 (hbad theta hth)
    rw [Multiset.mem_toFinset, mem_roots hne, IsRoot, eval_toPoly, herrs, ← claimDiff_theta,
      ← thetaSum_sub, h1 e he, claimValue_eq, one_mul, sub_self]
  have h1 : (bad.erase 0).card ≤ (toPoly errs).natDegree :=
    (Finset.card_le_card hsub).trans ((Multiset.toFinset_card_le _).trans (card_roots' _))
  have h2 : (toPoly errs).natDegree < errs.length := by
    rw [natDegree_lt_iff_degree_lt hne]
    exact degree_toPoly errs
  have h3 := Finset.pred_card_le_card_erase (s := bad) (a := 0)
  omega

/-! ## findings -/

/-- **C44** (finding): the verifier draws `theta` without absorbing the claimed evaluations. If two
polynomials are opened at the same point, shifting the first claim by `delta * theta` and the second by
`-delta` changes nothing in what it computes, whatever the rest of the proof is. -/
theorem C44_claims_not_bound [DecidableEq F] [DecidableEq Root] (M : MerkleLib F Tree Root Path)
    (T : FriTranscript S F Root) (prm : FriParams F) (v : LpcScheme F Tree) (k : Nat) (x : F)
    (hpts : v.ev.points = [(k, [[x], [x]])]) (hfix : v.batchFixed = []) (a b delta : F)
    (fp : FriProof F Root Path) (commitments : OMap Root) (st : S) :
    LpcScheme.verifyEval M T prm v ([(k, [[a + delta * (T.challenge
      (commitments.foldl (fun st e => T.absorbRoot st e.2) st)).2], [b - delta]])], fp) commitments st
    = LpcScheme.verifyEval M T prm v ([(k, [[a], [b]])], fp) commitments st := by
  unfold LpcScheme.verifyEval
  set theta := (T.challenge (commitments.foldl (fun st e => T.absorbRoot st e.2) st)).2 with hth
  have hitems : ∀ a b : F, lpcVerifierItems v [(k, [[a], [b]])]
      = some [(x, [((k, 0), a), ((k, 1), b)])] := by
    intro a b
    have hu : ({ v.ev with z := [(k, [[a], [b]])] } : PolysEvaluator F).uniquePoints = [x] := by
      simp [PolysEvaluator.uniquePoints, hpts, PolysEvaluator.pushUnique]
    unfold lpcVerifierItems
    simp only [hu, hfix, List.any_nil, Bool.false_eq_true, if_false]
    simp [lpcVerifierTerms, hpts, EvalStorage.batches, OMap.keys, EvalStorage.batchSize, OMap.find,
      OMap.getD, PolysEvaluator.firstIndex, EvalStorage.get, EvalStorage.getPoly, List.range_succ]
  simp only [hitems, Option.bind_eq_bind, Option.bind_some, ← hth]
  have : lpcItems theta 1 [(x, [((k, 0), a + delta * theta), ((k, 1), b - delta)])]
      = lpcItems theta 1 [(x, [((k, 0), a), ((k, 1), b)])] := by
    simp only [lpcItems, lpcUStep, List.foldl_cons, List.foldl_nil, List.map_cons, List.map_nil]
    congr 3
    ring
  rw [this]

/-- **C44** (finding): the verifier goes through the batches of the proof's own evaluations, not
through those it requested. A proof without evaluations, and with an honest FRI proof for the zero
polynomial, is accepted for all commitments and all requested points outside the domain. -/
theorem C44_empty_claims_accepted [DecidableEq F] [DecidableEq Root] (hL : L.Lawful A)
    (M : MerkleLib F Tree Root Path) (hM : M.Lawful) (T : FriTranscript S F Root)
    (prm : FriParams F) (n d : Nat) (hn : n ≤ A)
    (hrounds : 1 ≤ prm.r ∧ prm.r ≤ n ∧ prm.r ≤ d + 1)
    (hdom : ∀ t < prm.r, prm.D[t]? = some (L.domain (n - t)))
    (hdeg : prm.maxDegree + 1 = 2 ^ d) (v : LpcScheme F Tree)
    (houtside : ∀ x ∈ v.ev.uniquePoints, ∀ m, (L.domain n).elem m ≠ x)
    (hetha : ∀ m, (L.domain n).elem m ≠ v.etha)
    (commitments : OMap Root) (s0 : Nat) (hs0 : prm.stepList[0]? = some s0) (qTree : Tree)
    (Q : FriPoly F) (hpre : friPrecommit L M (.coeff [0]) (L.domain n) s0 = some (qTree, Q))
    (fuel nonce : Nat) (st st' : S) (fp : FriProof F Root Path)
    (h : friProve L M T prm [] Q [] qTree fuel nonce
      (T.challenge (commitments.foldl (fun st e => T.absorbRoot st e.2) st)).1 = some (fp, st')) :
    LpcScheme.verifyEval M T prm v ([], fp) commitments st = some (true, st') := by
  set st1 := commitments.foldl (fun st e => T.absorbRoot st e.2) st with hst1
  have hterms : ∀ x, lpcVerifierTerms { v.ev with z := [] } x = some [] := fun x => rfl
  obtain ⟨claims, hclaims, hnil⟩ : ∃ claims, lpcVerifierItems v [] = some claims ∧
      ∀ e ∈ claims, e.2 = [] ∧ (e.1 ∈ v.ev.uniquePoints ∨ e.1 = v.etha) := by
    unfold lpcVerifierItems
    have hu : ({ v.ev with z := [] } : PolysEvaluator F).uniquePoints = v.ev.uniquePoints := rfl
    have hm : (v.ev.uniquePoints.mapM fun x =>
        (lpcVerifierTerms ⟨[], v.ev.polys, v.ev.locked, v.ev.points⟩ x).bind fun ts => some (x, ts))
        = some (v.ev.uniquePoints.map fun x => (x, [])) :=
      mapM_eq_some_map _ _ _ (by intro x _; rw [hterms]; rfl)
    simp only [hu, Option.bind_eq_bind, hm, Option.bind_some]
    split_ifs
    · refine ⟨_, rfl, ?_⟩
      intro e he
      rcases List.mem_append.1 he with he | he
      · obtain ⟨x, hx, rfl⟩ := List.mem_map.1 he
        exact ⟨rfl, Or.inl hx⟩
      · simp only [List.mem_singleton] at he
        subst he
        exact ⟨rfl, Or.inr rfl⟩
    · refine ⟨_, rfl, ?_⟩
      intro e he
      obtain ⟨x, hx, rfl⟩ := List.mem_map.1 he
      exact ⟨rfl, Or.inl hx⟩
  have hne : ∀ e ∈ claims, ∀ m, (L.domain n).elem m ≠ e.1 := by
    intro e he m
    rcases (hnil e he).2 with h | h
    · exact houtside _ h m
    · rw [h]; exact hetha m
  have hitem : ∀ theta acc, ∀ it ∈ lpcItems theta acc claims, it.1 = [] ∧ it.2.1 = 0 ∧
      ∃ e ∈ claims, it.2.2 = [-e.1, 1] := by
    intro theta
    clear hclaims hne
    induction claims with
    | nil => intro acc it hit; simp [lpcItems] at hit
    | cons e claims ih =>
      intro acc it hit
      obtain ⟨x, ts⟩ := e
      have h0 := (hnil (x, ts) (by simp)).1
      simp only at h0
      subst h0
      simp only [lpcItems, List.foldl_nil, List.map_nil, List.mem_cons] at hit
      rcases hit with rfl | hit
      · exact ⟨rfl, rfl, (x, []), by simp, rfl⟩
      · obtain ⟨h1, h2, e, he, h3⟩ := ih (fun e he => hnil e (by simp [he])) acc it hit
        exact ⟨h1, h2, e, by simp [he], h3⟩
  have hzero : ∀ theta y (items : List (List (Nat × Nat) × F × List F)) acc,
      (∀ it ∈ items, it.1 = [] ∧ it.2.1 = 0) → quotientValue [] theta y items acc = 0 := by
    intro theta y items
    induction items with
    | nil => intro acc _; rfl
    | cons it items ih =>
      intro acc hall
      obtain ⟨ids, u, den⟩ := it
      obtain ⟨h1, h2⟩ := hall _ (List.mem_cons_self ..)
      simp only at h1 h2
      subst h1 h2
      rw [quotientValue, ih _ fun it hit => hall it (by simp [hit])]
      simp [thetaSum]
  have hS : FriSetup L M prm A n [] [] [] commitments (T.challenge st1).2
      (lpcItems (T.challenge st1).2 1 claims) [0] := {
    adicity := hn
    rounds := hrounds.2.1
    domains := hdom
    batches := .nil
    trees := by simp
    ids := by
      intro it hit id hid
      rw [(hitem _ _ it hit).1] at hid
      simp at hid
    dens := by
      intro it hit i
      obtain ⟨-, -, e, he, h3⟩ := hitem _ _ it hit
      rw [h3]
      have := hne e he i
      simp only [evalPoly_cons, evalPoly_nil, mul_zero, add_zero, mul_one]
      intro h0
      exact this (by linear_combination h0)
    quotient := by
      intro i
      rw [hzero _ _ _ _ fun it hit => ⟨(hitem _ _ it hit).1, (hitem _ _ it hit).2.1⟩]
      simp [evalPoly_cons] }
  have := C43_honest_accepted hL M hM T prm n d _ _ _ _ _ _ _ hS hdeg hrounds.2.2 (by simp)
    (by simp; omega) (.coeff [0]) Q qTree s0 hs0 ⟨rfl, by simpa using Nat.one_le_two_pow⟩ hpre fuel nonce _ _ fp h
  unfold LpcScheme.verifyEval
  simp only [hclaims, Option.bind_eq_bind, Option.bind_some, ← hst1]
  exact this

/-! ### leaf positions are not checked -/

/-- two lists of leaves in turn -/
def interleave {α : Type} : List α → List α → List α
  | a :: as, b :: bs => a :: b :: interleave as bs
  | _, _ => []

theorem interleave_length {α : Type} (as bs : List α) (h : as.length = bs.length) :
    (interleave as bs).length = 2 * as.length := by
  induction as generalizing bs with
  | nil => rfl
  | cons a as ih =>
    cases bs with
    | nil => simp at h
    | cons b bs =>
      simp only [interleave, List.length_cons] at *
      rw [ih bs (by omega)]
      omega

theorem interleave_get {α : Type} (as bs : List α) (h : as.length = bs.length) (i : Nat) :
    (interleave as bs)[2 * i]? = as[i]? ∧ (interleave as bs)[2 * i + 1]? = bs[i]? := by
  induction as generalizing bs i with
  | nil =>
    cases bs with
    | nil => simp [interleave]
    | cons b bs => simp at h
  | cons a as ih =>
    cases bs with
    | nil => simp at h
    | cons b bs =>
      simp only [List.length_cons] at h
      cases i with
      | zero => simp [interleave]
      | succ i =>
        obtain ⟨h1, h2⟩ := ih bs (by omega) i
        simp only [interleave, show 2 * (i + 1) = 2 * i + 1 + 1 by ring, List.getElem?_cons_succ]
        exact ⟨h1, h2⟩

/-- A prover's use of the Merkle trees `M`: the leaves stand at the even (`side = 0`) or odd
(`side = 1`) places of a tree twice as large, whose other places hold `other`. -/
def doubledTree (M : MerkleLib F Tree Root Path) (side : Nat)
    (other : List (List F) → List (List F)) : MerkleLib F Tree Root Path :=
  { M with
    build := fun ls => M.build (if side = 0 then interleave ls (other ls) else interleave (other ls) ls)
    path := fun t i => M.path t (2 * i + side) }

theorem doubledTree_lawful (M : MerkleLib F Tree Root Path) (hM : M.Lawful) (side : Nat)
    (hside : side = 0 ∨ side = 1) (other : List (List F) → List (List F))
    (hother : ∀ ls, (other ls).length = ls.length) : (doubledTree M side other).Lawful where
  root := by
    intro k ls i hl hi
    have hp : 2 ^ (k + 1) = 2 * 2 ^ k := by rw [pow_succ, mul_comm]
    simp only [doubledTree]
    apply hM.root (k + 1) _ (2 * i + side)
    · split_ifs
      · rw [interleave_length _ _ (hother ls).symm, hl, hp]
      · rw [interleave_length _ _ (hother ls), hother, hl, hp]
    · omega
  validate := by
    intro k ls i h hl
    have hp : 2 ^ (k + 1) = 2 * 2 ^ k := by rw [pow_succ, mul_comm]
    simp only [doubledTree]
    rcases hside with rfl | rfl
    · have hlen := interleave_length _ _ (hother ls).symm
      have hget := (interleave_get _ _ (hother ls).symm i).1
      rw [List.getElem?_eq_getElem h, List.getElem?_eq_getElem (by omega), Option.some.injEq] at hget
      have := hM.validate (k + 1) (interleave ls (other ls)) (2 * i) (by omega) (by omega)
      rw [hget] at this
      simpa using this
    · have hlen := interleave_length _ _ (hother ls)
      rw [hother] at hlen
      have hget := (interleave_get _ _ (hother ls) i).2
      rw [List.getElem?_eq_getElem h, List.getElem?_eq_getElem (by omega), Option.some.injEq] at hget
      have := hM.validate (k + 1) (interleave (other ls) ls) (2 * i + 1) (by omega) (by omega)
      rw [hget] at this
      simpa using this

/-- **C44** (finding): the verifier never looks at the place of a leaf in its tree, nor at the height of
the tree. For any two batches of equally many polynomials there is one root that a prover can open as
either: there are two provers, keeping their leaves in a tree twice as large, who both commit to that
root, and whose proofs the verifier, who only uses `root()` and `validate()` of a path, cannot tell
from honest ones (so `C43_honest_accepted` and `C44_honest_accepted` apply to both). -/
theorem C44_equivocation [DecidableEq F] (hL : L.Lawful A) (M : MerkleLib F Tree Root Path)
    (hM : M.Lawful) (n s0 : Nat) (hn : n ≤ A) (hs : 1 ≤ s0 ∧ s0 ≤ n) (fs gs : List (FriPoly F))
    (cs ds : List (List F)) (hf : List.Forall₂ (fun f c => f.Has L n c) fs cs)
    (hg : List.Forall₂ (fun f c => f.Has L n c) gs ds) :
    ∃ M1 M2 : MerkleLib F Tree Root Path, M1.Lawful ∧ M2.Lawful ∧
      (M1.pathRoot = M.pathRoot ∧ M1.validate = M.validate) ∧
      (M2.pathRoot = M.pathRoot ∧ M2.validate = M.validate) ∧
      ∃ tree, friPrecommitBatch L M1 fs (L.domain n) s0 = some tree ∧
        friPrecommitBatch L M2 gs (L.domain n) s0 = some tree ∧ M1.root tree = M2.root tree := by
  obtain ⟨m, rfl⟩ : ∃ m, n = m + 1 := ⟨n - 1, by omega⟩
  obtain ⟨s, rfl⟩ : ∃ s, s0 = s + 1 := ⟨s0 - 1, by omega⟩
  set lf := batchLeaves L m s cs with hlf
  set lg := batchLeaves L m s ds with hlg
  have hlen : lf.length = lg.length := by simp [hlf, hlg, batchLeaves]
  refine ⟨doubledTree M 0 fun ls => if ls = lf then lg else ls,
    doubledTree M 1 fun ls => if ls = lg then lf else ls, ?_, ?_, ⟨rfl, rfl⟩, ⟨rfl, rfl⟩,
    M.build (interleave lf lg), ?_, ?_, rfl⟩
  · apply doubledTree_lawful M hM 0 (Or.inl rfl)
    intro ls
    split_ifs with h
    · rw [h, hlen]
    · rfl
  · apply doubledTree_lawful M hM 1 (Or.inr rfl)
    intro ls
    split_ifs with h
    · rw [h, hlen]
    · rfl
  · rw [friPrecommitBatch_honest hL _ m s (by omega) (by omega) fs cs hf]
    simp [doubledTree, hlf]
  · rw [friPrecommitBatch_honest hL _ m s (by omega) (by omega) gs ds hg]
    simp [doubledTree, hlg]

section SameVerifier

variable [DecidableEq F] [DecidableEq Root] {M M1 : MerkleLib F Tree Root Path}
  (h : M1.pathRoot = M.pathRoot ∧ M1.validate = M.validate)

include h

theorem friCheckInitial_same (commitments : OMap Root) (order : List (Nat × Nat))
    (l : OMap (FriInitialProof F Path)) :
    friCheckInitial M1 commitments order l = friCheckInitial M commitments order l := by
  induction l with
  | nil => rfl
  | cons e l ih => simp only [friCheckInitial, h.1, h.2, ih]

theorem friRounds_same (prm : FriParams F) (alphas : List F) (steps : List Nat) :
    ∀ (roots : List Root) (rps : List (FriRoundProof F Path)) (w : FriWalk F),
      friRounds M1 prm alphas steps roots rps w = friRounds M prm alphas steps roots rps w := by
  induction steps with
  | nil => intro roots rps w; rfl
  | cons s rest ih =>
    intro roots rps w
    cases rest with
    | nil => simp only [friRounds, friRound, h.1, h.2]
    | cons s' rest' =>
      unfold friRounds
      simp only [friRound, h.1, h.2, ih]

theorem friVerifyQueries_same (T : FriTranscript S F Root) (prm : FriParams F)
    (commitments : OMap Root) (theta : F) (items : List (List (Nat × Nat) × F × List F))
    (alphas : List F) (roots : List Root) (final : List F) (n : Nat) :
    ∀ (qs : List (FriQueryProof F Path)) (st : S),
      friVerifyQueries M1 T prm commitments theta items alphas roots final n qs st =
        friVerifyQueries M T prm commitments theta items alphas roots final n qs st := by
  induction n with
  | zero => intro qs st; rfl
  | succ n ih =>
    intro qs st
    simp only [friVerifyQueries, friVerifyQuery, friCheckInitial_same h, friRounds_same h, ih]

/-- The verifier of both provers is the same. -/
theorem C44_same_verifier (T : FriTranscript S F Root)
    (prm : FriParams F) (v : LpcScheme F Tree) (proof : EvalStorage F × FriProof F Root Path)
    (commitments : OMap Root) (st : S) :
    LpcScheme.verifyEval M1 T prm v proof commitments st =
      LpcScheme.verifyEval M T prm v proof commitments st := by
  simp only [LpcScheme.verifyEval, friVerify, friVerifyQueries_same h]

end SameVerifier

/-! ## a concrete session -/

/-- the prover: batch `0` holds `3 + 5 X + X²` and `1 + 2 X`, batch `1`, which is fixed, holds
`5 + 2 X²` in evaluation form; all are opened at `7`, the second polynomial also at `3` -/
def exLpcProver : List (LpcOp (ZMod 17)) :=
  [.append 1 [.dfs (((FftLib.ofRoots exRoots17).domain 2).evals [5, 0, 2])], .commit 1, .markFixed 1,
    .append 0 [.coeff [3, 5, 1], .coeff [1, 2]], .commit 0, .points 0 [7], .pointsTo 0 1 [3],
    .points 1 [7]]

/-- the verifier of the same openings -/
def exLpcVerifier : List (LpcOp (ZMod 17)) :=
  [.batchSize 0 2, .batchSize 1 1, .markFixed 1, .points 0 [7], .pointsTo 0 1 [3], .points 1 [7]]

/-- the polynomials of the batches -/
def exLpcPolys : Nat → List (List (ZMod 17))
  | 0 => [[3, 5, 1], [1, 2]]
  | 1 => [[5, 0, 2]]
  | _ => []

theorem exDomain17 (m : Nat) (p : ZMod 17 → Prop)
    (h : ∀ j < 8, p (((FftLib.ofRoots exRoots17).domain 3).elem j)) :
    p (((FftLib.ofRoots exRoots17).domain 3).elem m) := by
  rw [← elem_mod exLib17_lawful 3 (by norm_num)]
  exact h _ (Nat.mod_lt _ (by norm_num))

/-- The two histories belong together. -/
theorem exLpcSession : LpcSession (FftLib.ofRoots exRoots17) exFriParams 4 3 2 exLpcProver
    exLpcVerifier exLpcPolys 6 where
  adicity := by norm_num
  rounds := by decide
  domains := (C43_params (FftLib.ofRoots exRoots17) 17 [1, 1] 2 3 1 false 0).2.2
  degree := by decide
  proverSizes := by intro k m; simp [exLpcProver]
  allCommitted := by
    intro k fs h
    simp only [exLpcProver, List.mem_cons, LpcOp.append.injEq, reduceCtorEq, List.not_mem_nil,
      or_false, false_or] at h
    rcases h with ⟨rfl, -⟩ | ⟨rfl, -⟩ <;> simp [exLpcProver]
  polys := by
    intro k
    match k with
    | 0 => exact .cons ⟨rfl, by decide⟩ (.cons ⟨rfl, by decide⟩ .nil)
    | 1 => exact .cons ⟨2, by decide, rfl, by decide⟩ .nil
    | k + 2 => simp [lpcAppended, exLpcProver, exLpcPolys]
  degrees := by
    intro k c hc
    match k with
    | 0 => revert c; decide
    | 1 => revert c; decide
    | k + 2 => simp [exLpcPolys] at hc
  verifierCommits := by intro k h; simp [exLpcVerifier] at h
  sizes := by
    intro k m h
    simp only [exLpcVerifier, List.mem_cons, LpcOp.batchSize.injEq, reduceCtorEq, List.not_mem_nil,
      or_false] at h
    rcases h with ⟨rfl, rfl⟩ | ⟨rfl, rfl⟩ <;> simp [exLpcProver, exLpcPolys]
  sized := by
    intro k h
    simp only [exLpcProver, List.mem_cons, LpcOp.commit.injEq, reduceCtorEq, List.not_mem_nil,
      or_false, false_or] at h
    rcases h with rfl | rfl
    · exact Or.inr ⟨1, by simp [exLpcVerifier]⟩
    · exact Or.inr ⟨2, by simp [exLpcVerifier]⟩
  samePoints := by intro k i; simp [lpcRequested, exLpcProver, exLpcVerifier]
  sameFixed := by intro k; simp [exLpcProver, exLpcVerifier]
  outside := by
    intro k i _ _ x hx m
    have hx' : x = 7 ∨ x = 3 := by
      simp only [lpcRequested, exLpcProver, List.flatMap_cons, List.flatMap_nil, List.nil_append,
        List.append_nil, List.mem_append] at hx
      rcases hx with hx | hx | hx <;> split_ifs at hx <;> simp_all
    apply exDomain17 m fun y => y ≠ x
    rcases hx' with rfl | rfl <;> decide +kernel
  ethaOutside := by
    intro k _ m
    apply exDomain17 m fun y => y ≠ 6
    decide +kernel

/-- The whole run: both sides replay their histories, the prover preprocesses the fixed batch, sets up
and proves, and the verifier verifies. -/
def exLpcRun : Option (ZMod 17 × List (Nat × List (ZMod 17)) × List (Nat × List (List (ZMod 17))) ×
    Bool × Bool) := do
  let sp ← runLpc (FftLib.ofRoots exRoots17) (listMerkle (ZMod 17)) exFriParams exLpcProver
  let v ← runLpc (FftLib.ofRoots exRoots17) (listMerkle (ZMod 17)) exFriParams exLpcVerifier
  let (_, data) ← sp.preprocess exFriTranscript 5
  let (st, sp) := sp.setup exFriTranscript 5 data
  let (st', v) := v.setup exFriTranscript 5 data
  let (proof, st1) ← sp.proofEval (FftLib.ofRoots exRoots17) (listMerkle (ZMod 17)) exFriTranscript
    exFriParams true 0 0 st
  let (ok, st2) ← v.verifyEval (listMerkle (ZMod 17)) exFriTranscript exFriParams proof
    (sp.trees.map fun e => (e.1, (listMerkle (ZMod 17)).root e.2)) st'
  some (sp.etha, data, proof.1, ok, decide (st1 = st2))

set_option synthInstance.maxHeartbeats 200000 in
set_option synthInstance.maxSize 1000 in
/-- In this run the verifier accepts and ends in the same transcript state. -/
example : exLpcRun =
    some (6, [(1, [9])], [(0, [[2], [15, 7]]), (1, [[1]])], true, true) := by decide +kernel

/-- A proof with false evaluations that the verifier accepts: the values at `7` of `3 + 5 X + X²` and
`1 + 2 X` are `2` and `15`, but the proof claims others. -/
theorem C44_false_evaluation_accepted :
    (do
      let sp ← runLpc (FftLib.ofRoots exRoots17) (listMerkle (ZMod 17)) exFriParams
        [.append 0 [.coeff [3, 5, 1], .coeff [1, 2]], .commit 0, .points 0 [7]]
      let v ← runLpc (FftLib.ofRoots exRoots17) (listMerkle (ZMod 17)) exFriParams
        [.batchSize 0 2, .points 0 [7]]
      let (proof, _) ← sp.proofEval (FftLib.ofRoots exRoots17) (listMerkle (ZMod 17)) exFriTranscript
        exFriParams false 0 0 0
      let (ok, _) ← v.verifyEval (listMerkle (ZMod 17)) exFriTranscript exFriParams
        ([(0, [[7], [14]])], proof.2)
        (sp.trees.map fun e => (e.1, (listMerkle (ZMod 17)).root e.2)) 0
      some ((proof.1 : List (Nat × List (List (ZMod 17)))), ok)) = some ([(0, [[2], [15]])], true) := by decide +kernel

/-- One commitment opened at `7` as `2`, by a prover who holds `3 + 5 X + X²`, and as `15`, by one who
holds `1 + 2 X`; the verifier accepts both. -/
def exEquivocation (side : Nat) (mine other : List (ZMod 17)) :
    Option (List (List (ZMod 17)) × List (Nat × List (List (ZMod 17))) × Bool) := do
  let ls ← friPrecommitBatch (FftLib.ofRoots exRoots17) (listMerkle (ZMod 17)) [.coeff other]
    ((FftLib.ofRoots exRoots17).domain 3) 1
  let own ← friPrecommitBatch (FftLib.ofRoots exRoots17) (listMerkle (ZMod 17)) [.coeff mine]
    ((FftLib.ofRoots exRoots17).domain 3) 1
  let M := doubledTree (listMerkle (ZMod 17)) side fun l => if l = own then ls else l
  let sp ← runLpc (FftLib.ofRoots exRoots17) M exFriParams
    [.append 0 [.coeff mine], .commit 0, .points 0 [7]]
  let v ← runLpc (FftLib.ofRoots exRoots17) (listMerkle (ZMod 17)) exFriParams
    [.batchSize 0 1, .points 0 [7]]
  let (proof, _) ← sp.proofEval (FftLib.ofRoots exRoots17) M exFriTranscript exFriParams false 0 0 0
  let commitments := sp.trees.map fun e => (e.1, M.root e.2)
  let root ← OMap.find commitments 0
  let (ok, _) ← v.verifyEval (listMerkle (ZMod 17)) exFriTranscript exFriParams proof commitments 0
  some (root, proof.1, ok)

set_option synthInstance.maxHeartbeats 200000 in
set_option synthInstance.maxSize 1000 in
/-- **C44** (finding): a root opened in two ways. -/
theorem C44_equivocation_witness :
    (exEquivocation 0 [3, 5, 1] [1, 2]).map Prod.snd = some ([(0, [[2]])], true) ∧
    (exEquivocation 1 [1, 2] [3, 5, 1]).map Prod.snd = some ([(0, [[15]])], true) ∧
    (exEquivocation 0 [3, 5, 1] [1, 2]).map Prod.fst =
      (exEquivocation 1 [1, 2] [3, 5, 1]).map Prod.fst := by decide +kernel

/-- The hypotheses of the exactness theorems are met: two claims at `7`, one of them false, and eight
points. -/
example : ClaimsOf [(0, [[3, 5, 1], [1, 2]])] 3
      [((7 : ZMod 17), [((0, 0), 2), ((0, 1), 14)])] ∧
    trueClaim [(0, [[3, 5, 1], [1, 2]])] (7 : ZMod 17) ((0, 0), 2) ∧
    ¬ trueClaim [(0, [[3, 5, 1], [1, 2]])] (7 : ZMod 17) ((0, 1), 14) ∧
    ∀ e ∈ [((7 : ZMod 17), [((0, 0), (2 : ZMod 17)), ((0, 1), 14)])],
      e.1 ∉ ({1, 2, 4, 8, 9, 13, 15, 16} : Finset (ZMod 17)) ∧
      3 + 1 ≤ ({1, 2, 4, 8, 9, 13, 15, 16} : Finset (ZMod 17)).card := by
  refine ⟨⟨by decide, ?_⟩, ⟨[3, 5, 1], rfl, by decide⟩, ?_, by decide⟩
  · intro e he t ht
    simp only [List.mem_singleton] at he
    subst he
    simp only [List.mem_cons, List.not_mem_nil, or_false] at ht
    rcases ht with rfl | rfl
    · exact ⟨_, rfl, by decide⟩
    · exact ⟨_, rfl, by decide⟩
  · rintro ⟨c, hc, hv⟩
    have : c = [1, 2] := by
      have h2 : batchPoly [(0, [[3, 5, 1], [(1 : ZMod 17), 2]])] (0, 1) = some [1, 2] := rfl
      rw [h2] at hc
      exact (Option.some.inj hc).symm
    subst this
    revert hv
    decide

end Crypto3Zk
