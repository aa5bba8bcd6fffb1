import Verif.Props.LPCQueriesShow
import Verif.Props.PlaceholderHiding
import Verif.Lemmas.PlaceholderLpc
import Verif.Lemmas.PlaceholderComplete
import Verif.Props.PlaceholderExample

/-!
# C104: an honest proof over LPC has cells of the witness
-/

set_option linter.unusedSectionVars false

namespace Crypto3Zk

variable {F : Type} [Field F] [LinearOrder F] {L : FftLib F} {A n fuel : Nat} {d : TableDesc} {c : Circuit F}
  {order : List PlonkVar} {t : PlonkTable F} {delta : F} {mqc : Nat} {S H Tree Root Path : Type} [DecidableEq Root]

/-- **C104**, finding: an honest proof over LPC has a query proof for each of the `lambda` challenges drawn at its end.
Whenever the query point of a challenge is a row of the table, the cell of every witness column in that row is written
in the proof. This holds of every row, also of those before the random padding. The proof of the evaluations is made by
the object `obj` of the commitment scheme with the transcript in the state `st`, and the transcript ends after the last
of these challenges. -/
theorem C104_lpc_proof_shows_cells (hS : PlaceholderSetup L A n fuel d c order t) (M : MerkleLib F Tree Root Path)
    (FT : FriTranscript S F Root) (prm : FriParams F) (dfs : Bool) (pfuel nonce : Nat)
    (T : PlonkTranscript S F H Root) (hash : H) {m s : Nat} (hm : m < A)
    (hD : prm.D[0]? = some (L.domain (m + 1))) (hs : prm.stepList[0]? = some (s + 1)) (hn : n ≤ m + 1)
    (proof : PlaceholderProof F Root (FriProof F Root Path))
    (hproof : HonestProof (lpcComm L M FT prm dfs pfuel nonce) T L n fuel d c order delta mqc hash t proof) :
    ∃ obj st st0, (lpcComm L M FT prm dfs pfuel nonce).proofEval obj st =
        some (proof.eval, challengesDrawn FT prm.lambda st0) ∧ proof.eval.2.queryProofs.length = prm.lambda ∧
      ∀ k q, proof.eval.2.queryProofs[k]? = some q → ∀ j < 2 ^ n,
        (FT.challenge (challengesDrawn FT k st0)).2 ^ ((prm.modulus - 1) / 2 ^ (m + 1)) = L.root n ^ j →
        ∀ (i : Nat) (col : List F), t.witnesses[i]? = some col →
          ∃ (e : FriInitialProof F Path) (ys : List (F × F)) (y : F × F), (VARIABLE_BATCH, e) ∈ q.initialProof ∧
            e.values[i]? = some ys ∧ ys[0]? = some y ∧ (y.1 = col.getD j 0 ∨ y.2 = col.getD j 0) := by
  obtain ⟨pd, o0, hpre, hprove⟩ := hproof
  have hp := preprocess_facts hpre
  obtain ⟨D, h⟩ := prove_run (lpcComm_rootLaws M FT prm dfs pfuel nonce) hprove
  obtain ⟨hpts, -, -, -⟩ := h.pts_eq hS hp
  have hrun := h.run
  have hset : ((lpcComm L M FT prm dfs pfuel nonce).setup o0 (T.key pd.common.hash pd.common.fixedCommitment)
      pd.common.schemeData).2 = o0.withData (FT.challenge (T.key pd.common.hash pd.common.fixedCommitment)).2
        pd.common.schemeData := rfl
  rw [hset] at hrun
  change List.foldlM (LpcOp.apply L M prm) _ _ = _ at hrun
  rw [lpc_run_withData] at hrun
  obtain ⟨sp, hsp, hobj⟩ := Option.map_eq_some_iff.1 hrun
  have hpre' : (fixedOps L n pd.perm t).foldlM (LpcOp.apply L M prm) LpcScheme.new = some o0 := hp.run
  have hall : runLpc L M prm (fixedOps L n pd.perm t ++
      (honestOps L n c t D.perm D.sorted D.vl D.chunks ++ D.pts)) = some sp := by
    rw [runLpc, List.foldlM_append, hpre']
    exact hsp
  have inv := lpc_run L M prm _ _ hall
  have happ := inv.forms VARIABLE_BATCH
  have hnone : lpcAppended VARIABLE_BATCH D.pts = [] := by
    refine lpcAppended_none _ _ fun fs hfs => ?_
    rw [hpts] at hfs
    rcases pointOps_ops _ _ _ _ _ _ _ _ _ _ hfs with ⟨k, xs, e⟩ | ⟨k, i, xs, e⟩ <;> cases e
  have hf : FIXED_BATCH ≠ VARIABLE_BATCH := by decide
  have hpb : PERMUTATION_BATCH ≠ VARIABLE_BATCH := by decide
  have hlb : LOOKUP_BATCH ≠ VARIABLE_BATCH := by decide
  have hqb : QUOTIENT_BATCH ≠ VARIABLE_BATCH := by decide
  rw [lpcAppended_append, lpcAppended_append, fixedOps_appended, honestOps_appended, hnone] at happ
  simp only [if_neg hf, if_neg hpb, if_neg hlb, if_neg hqb, if_true, ite_self, List.append_nil, List.nil_append] at happ
  have heval := h.eval
  rw [← hobj] at heval
  obtain ⟨st0, hst, hlen, hq⟩ := C104_lpc_queries_show_rows hS.lib M FT prm dfs pfuel nonce _ _ _ _ _ heval hm hD hs hn
  refine ⟨_, _, st0, hst ▸ heval, hlen, fun k q hk j hj hrow i col hcol => ?_⟩
  have hi := (List.getElem?_eq_some_iff.1 hcol).1
  have hget : (t.witnesses.map FriPoly.dfs ++ t.publicInputs.map FriPoly.dfs)[i]? = some (FriPoly.dfs col) := by
    rw [List.getElem?_append_left (by simpa using hi), List.getElem?_map, hcol]
    rfl
  have hmem : (VARIABLE_BATCH, t.witnesses.map FriPoly.dfs ++ t.publicInputs.map FriPoly.dfs) ∈ sp.forms := by
    apply OMap.find_some_mem
    unfold OMap.getD at happ
    cases hfd : sp.forms.find VARIABLE_BATCH with
    | none =>
      rw [hfd, Option.getD_none] at happ
      rw [← happ] at hget
      simp at hget
    | some v =>
      rw [hfd, Option.getD_some] at happ
      rw [happ]
  exact hq k q hk j hj hrow VARIABLE_BATCH _ i col hmem hget
    (hS.fits.rect.1 col (List.mem_of_getElem? hcol))

/-- A transcript for FRI that counts, with the challenge `25`. -/
def exShowFri : FriTranscript Nat (ZMod 257) (List (List (ZMod 257))) where
  absorb := fun s _ => s
  intChallenge := fun s => (s + 1, s)
  absorbRoot := fun s _ => s
  challenge := fun s => (s + 1, 25)

/-- The hypotheses of `C104_lpc_proof_shows_cells` are met, by a proof that shows cells: the three queries of this
honest proof are made at row `1` of the table, a usable one, and each has the witness in that row. -/
theorem C104_lpc_proof_example : ∃ (T : PlonkTranscript Nat (ZMod 257) Unit (List (List (ZMod 257))))
    (proof : PlaceholderProof (ZMod 257) (List (List (ZMod 257))) (FriProof (ZMod 257) (List (List (ZMod 257))) _)),
    HonestProof (lpcComm (FftLib.ofRoots exRoots257) (listMerkle (ZMod 257)) exShowFri exPlonkParams true 1 0) T
      (FftLib.ofRoots exRoots257) 2 (2 ^ 64) exPlonkDesc exPlonkCircuit exPlonkOrder 3 4 () exPlonkTable proof ∧
    proof.eval.2.queryProofs.length = 3 ∧ ∀ q ∈ proof.eval.2.queryProofs,
      ∀ (i : Nat) (col : List (ZMod 257)), exPlonkTable.witnesses[i]? = some col →
        ∃ e ys y, (VARIABLE_BATCH, e) ∈ q.initialProof ∧ e.values[i]? = some ys ∧ ys[0]? = some y ∧
          (y.1 = col.getD 1 0 ∨ y.2 = col.getD 1 0) := by
  obtain ⟨parts, badP, badT, badL, b1, b2, b3, h⟩ := C65_lpc_complete (mqc := 4) exPlonkSetup
    (by decide +kernel) (by decide +kernel) exPlonkDegrees exPlonkLimit exPlonkCopies exPlonkGates 2
    (fun _ => exPlonkLookups) 3
  have hc : Fintype.card (ZMod 257) = 257 := ZMod.card 257
  obtain ⟨T, t1, t2, t3⟩ := C65_challenges_exist 2 exPlonkCircuit exPlonkTable 3 parts badP badT badL
    exPlonkDomain
    (fun b => by
      have h1 : (badP b).card ≤ 12 := b1 b
      rw [exPlonkDomain_card, hc]; omega)
    (by
      have h1 : badT.card ≤ 24 := b2
      rw [exPlonkDomain_card, hc]; omega)
    (fun th b => by
      have h1 : (badL th b).card ≤ 6 := b3 th b
      rw [exPlonkDomain_card, hc]; omega)
    (by rw [exPlonkDomain_card, hc]; norm_num) 1 Unit (List (List (ZMod 257)))
  have hout : ∀ x, x ∉ exPlonkDomain → ∀ k, ((FftLib.ofRoots exRoots257).domain 3).elem k ≠ x := by
    rintro x hx k rfl
    exact hx (exPlonkDomain_mem k)
  obtain ⟨pd, o0, hpre, h⟩ := h (listMerkle (ZMod 257)) exShowFri T () exPlonkParams 3 2 true 1 0
    listMerkle_lawful exPlonkLpc (by decide) (by decide +kernel) hc (by decide)
    (fun _ => show (25 : ZMod 257) ≠ 0 by decide) (by intro h; exact absurd h (by decide))
  obtain ⟨y, hy, h⟩ := h (hout _ (show (25 : ZMod 257) ∉ exPlonkDomain by decide +kernel))
    (t3 _ _ (by rw [t2]; rfl))
  obtain ⟨st, rfl⟩ := openingChallenge_drawn hy
  obtain ⟨proof, hp, -⟩ := h (hout _ (t1 st))
  have hproof : HonestProof (lpcComm (FftLib.ofRoots exRoots257) (listMerkle (ZMod 257)) exShowFri exPlonkParams true 1 0)
      T (FftLib.ofRoots exRoots257) 2 (2 ^ 64) exPlonkDesc exPlonkCircuit exPlonkOrder 3 4 () exPlonkTable proof :=
    ⟨pd, o0, hpre, hp⟩
  obtain ⟨-, -, st0, -, hlen, hq⟩ := C104_lpc_proof_shows_cells exPlonkSetup (listMerkle (ZMod 257)) exShowFri
    exPlonkParams true 1 0 T () (m := 2) (s := 0) (by norm_num) rfl rfl (by norm_num) proof hproof
  refine ⟨T, proof, hproof, hlen, fun q hm => ?_⟩
  obtain ⟨k, hk⟩ := List.mem_iff_getElem?.1 hm
  exact hq k q hk 1 (by norm_num) (show (25 : ZMod 257) ^ ((257 - 1) / 2 ^ (2 + 1)) = _ by decide +kernel)

end Crypto3Zk
