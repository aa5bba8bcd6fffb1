import Verif.Lemmas.CircuitDigest
import Verif.Lemmas.FftExample
import Verif.Props.Equality
import Verif.Props.PlaceholderExample

/-!
# C96, C97: the verification key and the common data
-/

set_option linter.unusedSectionVars false

namespace Crypto3Zk

variable {F : Type} [Field F] [DecidableEq F] {P B S H Com Pr Data Obj : Type} {Tree Root Path : Type}
  {L : FftLib F} {A : Nat}

/-- **C96**: the digest binds everything that goes into it: if two circuits with their parameters have the
same digest, then either all of it is the same (the constraint systems compare equal), or the two buffers
are a collision of the hash. -/
theorem C96_digest_binds (D : DigestLib F P B H) (hD : D.Lawful) (c c' : Circuit F) (d d' : TableDesc)
    (rows rows' usable usable' : Nat) (params params' : P) (app app' : String) (delta delta' : F)
    (h : D.digest c d rows usable params app delta = D.digest c' d' rows' usable' params' app' delta') :
    (c.eqv c' = true ∧ d.witness = d'.witness ∧ d.publicInput = d'.publicInput ∧
        d.constant = d'.constant ∧ d.selector = d'.selector ∧ rows = rows' ∧ usable = usable' ∧
        params = params' ∧ app = app' ∧ delta = delta') ∨
      D.Collision (D.buffer c d rows usable params app delta)
        (D.buffer c' d' rows' usable' params' app' delta') := by
  by_cases hb : D.buffer c d rows usable params app delta = D.buffer c' d' rows' usable' params' app' delta'
  · left
    have hctx := hD.context _ _ _ _ hb
    have hsys : D.system c = D.system c' := by
      have := hb
      unfold DigestLib.buffer at this
      rw [hctx] at this
      exact List.append_cancel_left this
    refine ⟨hD.system _ _ hsys, ?_⟩
    simp only [InitContext.new, InitContext.mk.injEq] at hctx
    obtain ⟨h1, h2, h3, h4, h5, h6, h7, h8, -, h9⟩ := hctx
    exact ⟨h1, h2, h3, h4, h5, h6, h8, h9, h7⟩
  · exact Or.inr ⟨hb, h⟩

theorem forall₂_append_inv {α β : Type} {R : α → β → Prop} {a b : List α} {a' b' : List β}
    (h : List.Forall₂ R (a ++ b) (a' ++ b')) (hl : a.length = a'.length) :
    List.Forall₂ R a a' ∧ List.Forall₂ R b b' := by
  induction a generalizing a' with
  | nil =>
    cases a' with
    | nil => exact ⟨.nil, h⟩
    | cons x a' => simp at hl
  | cons x a ih =>
    cases a' with
    | nil => simp at hl
    | cons y a' =>
      rw [List.cons_append, List.cons_append, List.forall₂_cons] at h
      obtain ⟨h1, h2⟩ := ih h.2 (by simpa using hl)
      exact ⟨.cons h.1 h1, h2⟩

/-- **C96** (LPC, Merkle trees without collisions; missing, because false: the limit on the chunks, see below):
the verification key binds the circuit: if two
preprocessings give the same key, then either the constraint systems compare equal, the table descriptions,
the parameters, the constants and the selectors are the same, or the two buffers are a collision of the
hash. `order` and `fuel` may differ. -/
theorem C96_key_binds_partial [DecidableEq Root] (D : DigestLib F P B H) (hD : D.Lawful)
    (M : MerkleLib F Tree Root Path) (hM : M.CollisionFree) (T T' : PlonkTranscript S F H Root)
    (FT : FriTranscript S F Root) (prm : P → FriParams F) (params params' : P)
    {N Dg s0 : Nat} (hprm : LpcParams L (prm params) A N Dg)
    (hs0 : (prm params).stepList[0]? = some s0) (hs1 : 1 ≤ s0 ∧ s0 ≤ N)
    (dfs : Bool) (pfuel nonce n n' fuel fuel' : Nat) (d d' : TableDesc) (c c' : Circuit F)
    (order order' : List PlonkVar) (delta delta' : F) (mqc mqc' : Nat) (t t' : PlonkTable F)
    (hS : PlaceholderSetup L A n fuel d c order t) (hS' : PlaceholderSetup L A n' fuel' d' c' order' t')
    (hnN : n ≤ N) (pd pd' : PublicData F H Root (OMap (List F))) (o o' : LpcScheme F Tree)
    (h : placeholderProcess D (lpcComm L M FT (prm params) dfs pfuel nonce) T L n fuel d c order delta mqc
      params t LpcScheme.new = some (pd, o))
    (h' : placeholderProcess D (lpcComm L M FT (prm params') dfs pfuel nonce) T' L n' fuel' d' c' order'
      delta' mqc' params' t' LpcScheme.new = some (pd', o'))
    (hvk : pd.common.vk = pd'.common.vk) :
    (c.eqv c' = true ∧ d = d' ∧ params = params' ∧ delta = delta' ∧
        t.constants = t'.constants ∧ t.selectors = t'.selectors) ∨
      D.Collision (D.buffer c d d.rows d.usableRows params defaultApplicationId delta)
        (D.buffer c' d' d'.rows d'.usableRows params' defaultApplicationId delta') := by
  have hf := preprocess_facts h
  have hf' := preprocess_facts h'
  simp only [CommonData.vk, VerificationKey.mk.injEq] at hvk
  obtain ⟨hhash, hcom⟩ := hvk
  rw [hf.hashEq, hf'.hashEq] at hhash
  rcases C96_digest_binds D hD _ _ _ _ _ _ _ _ _ _ _ _ _ _ hhash with hsame | hcoll
  swap
  · exact Or.inr hcoll
  left
  obtain ⟨heqv, e1, e2, e3, e4, e5, e6, rfl, -, e7⟩ := hsame
  have hdd : d = d' := by cases d; cases d'; simp_all
  subst hdd
  have hnn : n = n' := by
    have := hS.rows.symm.trans hS'.rows
    exact Nat.pow_right_injective (le_refl 2) this
  subst hnn
  refine ⟨heqv, rfl, rfl, e7, ?_⟩
  -- the two trees
  obtain ⟨Dm, s, tree, hD0, hs, htree, hfind⟩ := lpc_fixed_root M (prm params) pd.perm t o hf.run
  obtain ⟨Dm', s', tree', hD0', hs', htree', hfind'⟩ := lpc_fixed_root M (prm params) pd'.perm t' o' hf'.run
  have hdom := hprm.domains 0 (by have := hprm.rounds; omega)
  rw [hD0, Nat.sub_zero, Option.some.injEq] at hdom
  rw [hD0, Option.some.injEq] at hD0'
  rw [hs0, Option.some.injEq] at hs
  rw [hs0, Option.some.injEq] at hs'
  subst hD0' hs hs' hdom
  obtain ⟨m, rfl⟩ : ∃ m, N = m + 1 := ⟨N - 1, by omega⟩
  obtain ⟨s, rfl⟩ : ∃ m, s0 = m + 1 := ⟨s0 - 1, by omega⟩
  have hA := hprm.adicity
  have hhas := fixed_has hS.lib hS.small hnN hf.perm t hS.fits
  have hhas' := fixed_has hS.lib hS.small hnN hf'.perm t' hS'.fits
  rw [friPrecommitBatch_honest hS.lib M m s (by omega) (by omega) _ _ hhas, Option.some.injEq] at htree
  rw [friPrecommitBatch_honest hS.lib M m s (by omega) (by omega) _ _ hhas', Option.some.injEq] at htree'
  have hroots : M.root tree = M.root tree' := by
    have h1 := hf.root
    have h2 := hf'.root
    simp only [lpcComm, hfind, hfind', Option.map_some, Option.some.injEq] at h1 h2
    rw [h1, h2, hcom]
  rw [← htree, ← htree'] at hroots
  have hagree := batchLeaves_inj hS.lib m s (by omega) (by omega) _ _ (hM _ _ hroots)
  -- the columns
  have hlen : pd.perm.sId.length = pd'.perm.sId.length ∧ pd.perm.sSigma.length = pd'.perm.sSigma.length := by
    obtain ⟨h1, h2, -⟩ := permPreprocess_shape hS.lib hS.small hf.perm
    obtain ⟨h1', h2', -⟩ := permPreprocess_shape hS.lib hS.small hf'.perm
    have hcop : c.copies = c'.copies := ((circuitEqv_iff c c').1 heqv).copies
    have hperm : order.Perm order' := by
      refine (List.perm_ext_iff_of_nodup hS.nodup hS'.nodup).2 fun v => ?_
      rw [hS.members, hS'.members, hcop]
    rw [h1, h2, h1', h2', hperm.length_eq]
    exact ⟨rfl, rfl⟩
  have hcols : t.constants.length = t'.constants.length := by
    rw [hS.fits.constant, hS'.fits.constant]
  have hcolumn : ∀ l l' : List (List F), (∀ v ∈ l, v.length = 2 ^ n) → (∀ v ∈ l', v.length = 2 ^ n) →
      List.Forall₂ (fun c c' => ∀ i, evalPoly c ((L.domain (m + 1)).elem i) =
        evalPoly c' ((L.domain (m + 1)).elem i)) (l.map L.coefficients) (l'.map L.coefficients) →
      l = l' := by
    intro l l' hl hl' hr
    rw [List.forall₂_map_left_iff, List.forall₂_map_right_iff] at hr
    induction hr with
    | nil => rfl
    | @cons v v' l l' hv _ ih =>
      rw [column_of_poly hS.lib hS.small hA hnN v v' (hl v (by simp)) (hl' v' (by simp)) hv,
        ih (fun w hw => hl w (by simp [hw])) fun w hw => hl' w (by simp [hw])]
  unfold fixedCoeffs at hagree
  obtain ⟨hagree, hsel⟩ := forall₂_append_inv hagree (by simp [hlen.1, hlen.2, hcols])
  obtain ⟨-, hcon⟩ := forall₂_append_inv hagree (by simp [hlen.1, hlen.2])
  exact ⟨hcolumn _ _ hS.fits.rect.2.2.1 hS'.fits.rect.2.2.1 hcon,
    hcolumn _ _ hS.fits.rect.2.2.2 hS'.fits.rect.2.2.2 hsel⟩

/-- **C96** (finding): the key does not bind the limit on the chunks of the quotient: preprocessings that
differ only in it have the same key, ... -/
theorem C96_chunks_not_bound (D : DigestLib F P B H) (C : CommScheme F S Com Pr Data Obj)
    (T : PlonkTranscript S F H Com) (L : FftLib F) (n fuel : Nat) (d : TableDesc) (c : Circuit F)
    (order : List PlonkVar) (delta : F) (mqc mqc' : Nat) (params : P) (t : PlonkTable F) (obj : Obj)
    (pd pd' : PublicData F H Com Data) (o o' : Obj)
    (h : placeholderProcess D C T L n fuel d c order delta mqc params t obj = some (pd, o))
    (h' : placeholderProcess D C T L n fuel d c order delta mqc' params t obj = some (pd', o')) :
    pd.common.vk = pd'.common.vk ∧ pd.common.schemeData = pd'.common.schemeData ∧
      pd.common.mqc = mqc ∧ pd'.common.mqc = mqc' := by
  have hf := preprocess_facts h
  have hf' := preprocess_facts h'
  have hops : fixedOps L n pd.perm t = fixedOps L n pd'.perm t := by
    have h1 := hf.perm
    have h2 := hf'.perm
    unfold permPreprocess at h1 h2
    obtain ⟨perm, hperm, h1⟩ := Option.bind_eq_some_iff.1 h1
    obtain ⟨gi, hgi, h1⟩ := Option.bind_eq_some_iff.1 h1
    obtain ⟨parts, hparts, h1⟩ := Option.bind_eq_some_iff.1 h1
    rw [hperm, Option.bind_eq_bind, Option.bind_some, hgi, Option.bind_eq_bind, Option.bind_some] at h2
    obtain ⟨parts', hparts', h2⟩ := Option.bind_eq_some_iff.1 h2
    simp only [Option.some.injEq] at h1 h2
    rw [← h1, ← h2]
    rfl
  have hrun := hf.run
  rw [hops, hf'.run, Option.some.injEq] at hrun
  subst hrun
  have hroot := hf.root
  rw [hf'.root, Option.some.injEq] at hroot
  have hdata := hf.data
  rw [hf.hashEq, ← hroot, ← hf'.hashEq, hf'.data, Option.some.injEq] at hdata
  refine ⟨?_, hdata.symm, hf.mqcEq, hf'.mqcEq⟩
  simp only [CommonData.vk, hf.hashEq, hf'.hashEq, hroot]

/-- ... although the verifier's data are different: with three permuted columns the permutation argument has
one part without a limit, and two with the limit three. -/
theorem C96_parts_differ : permutationParts 3 0 = some 1 ∧ permutationParts 3 3 = some 2 := by
  decide +kernel

/-- **C97**: the common data of a preprocessing are rebuilt from the fields that are marshalled. -/
theorem C97_rebuilt (hL : L.Lawful A) (C : CommScheme F S Com Pr Data Obj)
    (T : PlonkTranscript S F H Com) (n fuel : Nat) (hn : n ≤ A) (d : TableDesc) (hd : d.rows = 2 ^ n)
    (c : Circuit F) (order : List PlonkVar) (delta : F) (mqc : Nat) (hash : H) (t : PlonkTable F)
    (obj o : Obj) (pd : PublicData F H Com Data)
    (h : placeholderPreprocess C T L n fuel d c order delta mqc hash t obj = some (pd, o)) :
    pd.common.marshalled.build L = pd.common := by
  have hf := preprocess_facts h
  have hl : L.coefficients ((List.replicate pd.common.desc.rows (0 : F)).set 0 1) = pd.common.lagrange0 := by
    obtain ⟨-, -, -, -, -, -, hl, -⟩ := permPreprocess_shape hL hn hf.perm
    rw [hf.lagrange0, hl, hf.desc, hd]
    congr 1
    apply List.ext_getElem
    · simp [lagrangeValues]
    · intro i h1 h2
      simp only [lagrangeValues, List.getElem_set, List.getElem_replicate, List.getElem_map,
        List.getElem_range, eq_comm]
  have hz : vanishingCoeffs pd.common.desc.rows = pd.common.Z := by
    rw [hf.Z, hf.desc, hd]
  unfold MarshalledCommon.build CommonData.marshalled CommonData.vk
  simp only
  rw [hl, hz]

/-- **C97**: common data compare equal exactly if all of it is the same. -/
theorem C97_eq_iff [DecidableEq H] [DecidableEq Com] [DecidableEq Data] (a b : CommonData F H Com Data) :
    a.eqv b = true ↔ a = b := by
  cases a
  cases b
  simp only [CommonData.eqv, CommonData.vk, Bool.and_eq_true, decide_eq_true_eq, CommonData.mk.injEq,
    VerificationKey.mk.injEq]
  constructor
  · rintro ⟨⟨⟨⟨⟨⟨⟨⟨⟨⟨⟨⟨h1, h2⟩, h3⟩, h4⟩, h5⟩, h6⟩, h7⟩, h8⟩, h9⟩, h10⟩, h11⟩, h12⟩, h13⟩
    exact ⟨h3, h2, h1, h7, h12, h13, h8.1, h9, h10, h11, h5, h6⟩
  · rintro ⟨h3, h2, h1, h7, h12, h13, h8, h9, h10, h11, h5, h6⟩
    exact ⟨⟨⟨⟨⟨⟨⟨⟨⟨⟨⟨⟨h1, h2⟩, h3⟩, by rw [h1]⟩, h5⟩, h6⟩, h7⟩, h8, h3⟩, h9⟩, h10⟩, h11⟩, h12⟩, h13⟩

/-- **C97**: so the verifier gives the same verdict with data that compare equal, and with rebuilt data, on
every proof and public input. -/
theorem C97_same_verdict [DecidableEq H] [DecidableEq Com] [DecidableEq Data]
    (a b : CommonData F H Com Data) (h : a.eqv b = true) (C : CommScheme F S Com Pr Data Obj)
    (T : PlonkTranscript S F H Com) (L : FftLib F) (n : Nat) (asserts : Bool) (d : TableDesc)
    (c : Circuit F) (proof : PlaceholderProof F Com Pr) (obj : Obj) (publicInput : List (List F)) :
    placeholderVerifyPublic C T L n asserts d c a proof obj publicInput =
      placeholderVerifyPublic C T L n asserts d c b proof obj publicInput := by
  rw [(C97_eq_iff a b).1 h]

/-! ## examples -/

/-- a way of writing contexts and constraint systems: one letter each -/
def exDigest (F : Type) : DigestLib F Nat (InitContext F Nat ⊕ Circuit F)
    (List (InitContext F Nat ⊕ Circuit F)) where
  modulus := 257
  context := fun c => [.inl c]
  system := fun c => [.inr c]
  hash := id

theorem exDigest_lawful : (exDigest (ZMod 257)).Lawful where
  context := by
    intro a b x y h
    simp only [exDigest, List.cons_append, List.nil_append, List.cons.injEq, Sum.inl.injEq] at h
    exact h.1
  system := by
    intro a b h
    simp only [exDigest, List.cons.injEq, Sum.inr.injEq, and_true] at h
    subst h
    exact (C93_equivalence (F := ZMod 257)).1 a

theorem exListMerkle_collisionFree : (listMerkle F).CollisionFree := fun _ _ h => h

/-- a transcript that counts -/
def exDigestTranscript : PlonkTranscript Nat (ZMod 257)
    (List (InitContext (ZMod 257) Nat ⊕ Circuit (ZMod 257))) (List (List (ZMod 257))) where
  start := 0
  hash := fun h s => s + h.length
  absorb := fun _ s => s + 1
  challenge := fun s => ((s : ZMod 257), s + 1)

/-- the circuit of the example for the proof system is preprocessed with either limit -/
theorem exDigest_process (mqc : Nat) (h : mqc = 0 ∨ mqc = 4) :
    ∃ pd o, placeholderProcess (exDigest (ZMod 257))
      (lpcComm (FftLib.ofRoots exRoots257) (listMerkle (ZMod 257)) exPlonkFri exPlonkParams true 0 0)
      exDigestTranscript (FftLib.ofRoots exRoots257) 2 (2 ^ 64) exPlonkDesc exPlonkCircuit exPlonkOrder 3 mqc
      (7 : Nat) exPlonkTable LpcScheme.new = some (pd, o) := by
  obtain ⟨pre, -, hrun⟩ := C65_preprocessor_succeeds exPlonkSetup (by decide +kernel) (mqc := mqc)
    (h.imp_right fun h => by rw [h]; decide +kernel) 3
  obtain ⟨pd, o, -, h⟩ := hrun
    (lpcComm (FftLib.ofRoots exRoots257) (listMerkle (ZMod 257)) exPlonkFri exPlonkParams true 0 0)
    exDigestTranscript _
    (lpcComm_totalSetup exLib257_lawful _ _ exPlonkLpc rfl (by decide) true 0 0)
    (hasLaws_lpc 3 (by norm_num)) (by decide)
  exact ⟨pd, o, h⟩

/-- the preprocessings with the two limits have the same key -/
example : ∃ pd pd' o o', placeholderProcess (exDigest (ZMod 257))
      (lpcComm (FftLib.ofRoots exRoots257) (listMerkle (ZMod 257)) exPlonkFri exPlonkParams true 0 0)
      exDigestTranscript (FftLib.ofRoots exRoots257) 2 (2 ^ 64) exPlonkDesc exPlonkCircuit exPlonkOrder 3 0
      (7 : Nat) exPlonkTable LpcScheme.new = some (pd, o) ∧
    placeholderProcess (exDigest (ZMod 257))
      (lpcComm (FftLib.ofRoots exRoots257) (listMerkle (ZMod 257)) exPlonkFri exPlonkParams true 0 0)
      exDigestTranscript (FftLib.ofRoots exRoots257) 2 (2 ^ 64) exPlonkDesc exPlonkCircuit exPlonkOrder 3 4
      (7 : Nat) exPlonkTable LpcScheme.new = some (pd', o') ∧
    pd.common.vk = pd'.common.vk ∧ pd.common.mqc ≠ pd'.common.mqc := by
  obtain ⟨pd, o, h⟩ := exDigest_process 0 (Or.inl rfl)
  obtain ⟨pd', o', h'⟩ := exDigest_process 4 (Or.inr rfl)
  obtain ⟨h1, -, h2, h3⟩ := C96_chunks_not_bound _ _ _ _ _ _ _ _ _ _ _ _ _ _ _ _ _ _ _ h h'
  exact ⟨pd, pd', o, o', h, h', h1, by rw [h2, h3]; decide⟩

end Crypto3Zk
