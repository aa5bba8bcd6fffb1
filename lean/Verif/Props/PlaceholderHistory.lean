import Verif.Spec.PlaceholderHistory
import Verif.Model.PlaceholderKzg
import Verif.Model.PlaceholderKzg2
import Verif.Lemmas.PlaceholderSoundRun
import Verif.Props.Transcript
import Verif.Props.PlaceholderKzg

/-!
# C116: the challenge of a placeholder proof depends on the key and on all commitments
-/

set_option linter.unusedSectionVars false

namespace Crypto3Zk

variable {F : Type} [Field F] [DecidableEq F] {S H Com Pr Data Obj : Type}
variable {T : PlonkTranscript S F H Com}

theorem after_append (T : PlonkTranscript S F H Com) (st : S) (a b : List (PlonkEvent H Com)) :
    T.after st (a ++ b) = T.after (T.after st a) b := by
  simp [PlonkTranscript.after, List.foldl_append]

theorem after_nil (T : PlonkTranscript S F H Com) (st : S) : T.after st [] = st := rfl

theorem after_drawN (T : PlonkTranscript S F H Com) (k : Nat) (st : S) :
    T.after st (List.replicate k .draw) = (drawN T.challenge k st).2 := by
  induction k generalizing st with
  | zero => rfl
  | succ k ih =>
    rw [List.replicate_succ, drawN]
    exact ih _

theorem permVerify_draws {ch : S → F × S} {lagrange0 : List F} {mqc parts : Nat} {c : PermClaims F} {y : F} {st st' : S}
    {r : F × F × F} (h : permVerify ch lagrange0 mqc parts c y st = some (r, st')) :
    st' = (drawN ch (parts + 1) st).2 := by
  unfold permVerify at h
  simp only at h
  split at h
  · cases h
  · rename_i hp
    obtain ⟨q, rfl⟩ : ∃ q, parts = q + 1 := ⟨parts - 1, by push Not at hp; omega⟩
    split at h
    · cases h
    · split at h
      · simp only [Option.bind_eq_bind, Option.bind_eq_some_iff, Option.some.injEq, Prod.mk.injEq] at h
        obtain ⟨gh, -, -, rfl⟩ := h
        rfl
      · simp only [Option.bind_eq_bind, Option.bind_eq_some_iff, Option.some.injEq, Prod.mk.injEq] at h
        obtain ⟨r, -, gh, -, -, rfl⟩ := h
        rfl

theorem drawN_add (ch : S → F × S) (a b : Nat) (st : S) :
    (drawN ch (a + b) st).2 = (drawN ch b (drawN ch a st).2).2 := by
  induction a generalizing st with
  | zero => rw [Nat.zero_add]; rfl
  | succ a ih => rw [Nat.succ_add]; exact ih _

theorem lookupVerify_draws {ch : S → F × S} {absorb : Com → S → S} {com : Com} {sys : LookupSystem F} {mqc : Nat}
    {ev : Nat → Int → ColumnType → Option F} {c : LookupClaims F} {st st' : S} {r : F × F × F × F}
    (h : lookupVerify ch absorb com sys mqc ev c st = some (r, st')) :
    ∃ k, st' = (drawN ch k (absorb com (ch st).2)).2 := by
  refine ⟨2 + (((sys.parts mqc).length - 1) + (c.sorted.length - 1)), ?_⟩
  rw [drawN_add, drawN_add]
  unfold lookupVerify at h
  simp only [Option.bind_eq_bind, Option.bind_eq_some_iff] at h
  obtain ⟨values, -, inputs, -, h⟩ := h
  split at h
  · cases h
  · simp only [Option.bind_eq_some_iff] at h
    obtain ⟨gs, -, hs, -, h⟩ := h
    split at h
    · cases h
    · split at h
      · simp only [Option.bind_eq_some_iff, Option.some.injEq, Prod.mk.injEq] at h
        obtain ⟨g, -, h', -, -, rfl⟩ := h
        rfl
      · simp only [Option.bind_eq_some_iff, Option.some.injEq, Prod.mk.injEq] at h
        obtain ⟨r, -, g, -, h', -, -, rfl⟩ := h
        rfl

theorem gateVerify_draws {ch : S → F × S} {gates : List (Gate F)} {ev : Nat → Int → ColumnType → Option F} {mask : F}
    {st st' : S} {r : F} (h : gateVerify ch gates ev mask st = some (r, st')) : st' = (drawN ch 1 st).2 := by
  unfold gateVerify at h
  simp only [Option.bind_eq_bind, Option.bind_eq_some_iff, Option.some.injEq, Prod.mk.injEq] at h
  obtain ⟨f, -, -, rfl⟩ := h
  rfl

/-- **C116.** Whenever the verifier reaches a verdict, the evaluation point of the proof is what the transcript
returns after the verification key (the digest of the circuit and the commitment to the fixed columns), the
commitment to the table, to the sorted columns, to the grand products and to the quotient, in this order; all of these
are in the proof. The commitment scheme may draw challenges when it is set up. -/
theorem C116_challenge_of_history (C : CommScheme F S Com Pr Data Obj) (L : FftLib F) (n : Nat) (d : TableDesc)
    (c : Circuit F) (common : CommonData F H Com Data) (proof : PlaceholderProof F Com Pr) (obj : Obj) (setup : Nat)
    (hset : ∀ st, (C.setup obj st common.schemeData).1 = T.after st (List.replicate setup .draw)) {verdict : Bool}
    (hv : placeholderVerify C T L n true d c common proof obj = some verdict) :
    (∃ k, proof.challenge =
      (T.challenge (T.after T.start (placeholderHistory c common proof.commitments setup k))).1) ∧
    CommitmentsPresent c proof.commitments := by
  unfold placeholderVerify at hv
  obtain ⟨vcom, hvc, hv⟩ := Option.bind_eq_some_iff.1 hv
  obtain ⟨ql, -, hv⟩ := Option.bind_eq_some_iff.1 hv
  obtain ⟨qb, -, hv⟩ := Option.bind_eq_some_iff.1 hv
  obtain ⟨fs, -, hv⟩ := Option.bind_eq_some_iff.1 hv
  obtain ⟨⟨fp, st1⟩, hfp, hv⟩ := ite_back hv
  obtain ⟨ev, -, hv⟩ := Option.bind_eq_some_iff.1 hv
  obtain ⟨⟨fl, st2⟩, hfl, hv⟩ := ite_back2 hv
  obtain ⟨st3, hst3, hv⟩ := ite_back hv
  obtain ⟨⟨fg, st4⟩, hfg, hv⟩ := Option.bind_eq_some_iff.1 hv
  obtain ⟨qcom, hqc, hv⟩ := Option.bind_eq_some_iff.1 hv
  have hy : (T.challenge (T.absorb qcom (drawN T.challenge 8 st4).2)).1 = proof.challenge := by
    simp only at hv
    split at hv
    · cases hv
    · rename_i h
      by_contra hne
      exact h ⟨by simp, hne⟩
  have e1 : st1 = T.after (T.absorb vcom (C.setup obj (T.key common.hash common.fixedCommitment) common.schemeData).1)
      (if c.copies.length = 0 then [] else List.replicate (common.permutationParts + 1) .draw) := by
    by_cases h : c.copies.length = 0
    · rw [if_neg (by omega), Option.some_inj, Prod.mk.injEq] at hfp
      rw [if_pos h, ← hfp.2]
      rfl
    · rw [if_pos (by omega)] at hfp
      obtain ⟨cl, -, hfp⟩ := Option.bind_eq_some_iff.1 hfp
      rw [if_neg h, after_drawN, permVerify_draws hfp]
  have e2 : ∃ k, (c.lookups.gates.length ≠ 0 → proof.commitments.find LOOKUP_BATCH ≠ none) ∧
      st2 = T.after st1 (if c.lookups.gates.length = 0 then []
        else [.draw] ++ batchEvent proof.commitments LOOKUP_BATCH ++ List.replicate k .draw) := by
    by_cases h : c.lookups.gates.length = 0
    · rw [if_neg (by omega), Option.some_inj, Prod.mk.injEq] at hfl
      refine ⟨0, fun h' => absurd h h', ?_⟩
      rw [if_pos h, ← hfl.2]
      rfl
    · rw [if_pos (by omega)] at hfl
      obtain ⟨cl, -, hfl⟩ := Option.bind_eq_some_iff.1 hfl
      obtain ⟨lcom, hlc, hfl⟩ := Option.bind_eq_some_iff.1 hfl
      obtain ⟨k, hk⟩ := lookupVerify_draws hfl
      refine ⟨k, fun _ => by simp [hlc], ?_⟩
      rw [if_neg h, after_append, after_drawN, after_append, batchEvent, hlc, hk]
      rfl
  obtain ⟨k, hl, e2⟩ := e2
  have e3 : (¬ (c.copies.length = 0 ∧ c.lookups.gates.length = 0) →
        proof.commitments.find PERMUTATION_BATCH ≠ none) ∧
      st3 = T.after st2 (if c.copies.length = 0 ∧ c.lookups.gates.length = 0 then []
        else batchEvent proof.commitments PERMUTATION_BATCH) := by
    by_cases h : c.copies.length = 0 ∧ c.lookups.gates.length = 0
    · rw [if_neg (by omega), Option.some_inj] at hst3
      rw [if_pos h, ← hst3]
      exact ⟨fun h' => absurd h h', rfl⟩
    · rw [if_pos (by omega)] at hst3
      obtain ⟨pcom, hpc, hst3⟩ := Option.bind_eq_some_iff.1 hst3
      rw [Option.some_inj] at hst3
      rw [if_neg h, batchEvent, hpc, ← hst3]
      exact ⟨fun _ => by simp, rfl⟩
  have e4 := gateVerify_draws hfg
  refine ⟨⟨k, ?_⟩, by simp [hvc], by simp [hqc], fun h => hl (by simpa using h), fun h => e3.1 ?_⟩
  · have bq : batchEvent (H := H) proof.commitments QUOTIENT_BATCH = [.com qcom] := by rw [batchEvent, hqc]; rfl
    have bv : batchEvent (H := H) proof.commitments VARIABLE_BATCH = [.com vcom] := by rw [batchEvent, hvc]; rfl
    rw [← hy, e4, ← drawN_add, placeholderHistory, bq, bv, after_append, after_append, after_append, after_append,
      after_append, after_append, after_append, after_drawN, e3.2, e2, e1, hset]
    rfl
  · rintro ⟨h1, h2⟩
    rw [List.length_eq_zero_iff] at h1 h2
    tauto

/-- the absorbed values of a history -/
def absorbed (events : List (PlonkEvent H Com)) : List (H ⊕ Com) :=
  events.filterMap fun
    | .key h => some (.inl h)
    | .com c => some (.inr c)
    | .draw => none

theorem absorbed_append (a b : List (PlonkEvent H Com)) : absorbed (a ++ b) = absorbed a ++ absorbed b := by
  simp [absorbed]

theorem absorbed_draws (k : Nat) : absorbed (List.replicate k (.draw : PlonkEvent H Com)) = [] := by
  induction k with
  | zero => rfl
  | succ k ih => rw [List.replicate_succ]; exact ih

theorem absorbed_batch (m : OMap Com) (k : Nat) (x : Com) (h : m.find k = some x) :
    absorbed (batchEvent m k : List (PlonkEvent H Com)) = [.inr x] := by
  rw [batchEvent, h]
  rfl

/-- what is absorbed before the evaluation point is drawn -/
theorem absorbed_history (c : Circuit F) (common : CommonData F H Com Data) (m : OMap Com) (setup k : Nat) :
    absorbed (placeholderHistory c common m setup k) =
      [.inl common.hash, .inr common.fixedCommitment] ++ absorbed (H := H) (batchEvent m VARIABLE_BATCH) ++
      (if c.lookups.gates.length = 0 then [] else absorbed (batchEvent m LOOKUP_BATCH)) ++
      (if c.copies.length = 0 ∧ c.lookups.gates.length = 0 then [] else absorbed (batchEvent m PERMUTATION_BATCH)) ++
      absorbed (batchEvent m QUOTIENT_BATCH) := by
  simp only [placeholderHistory, absorbed_append, absorbed_draws, List.append_nil]
  have h1 : absorbed (H := H) (Com := Com) [.key common.hash, .com common.fixedCommitment] =
      [.inl common.hash, .inr common.fixedCommitment] := rfl
  rw [h1]
  by_cases h : c.copies.length = 0 <;> by_cases h' : c.lookups.gates.length = 0 <;>
    simp [h, h', absorbed_append, absorbed_draws, absorbed]

theorem history_determines (c : Circuit F) (common common' : CommonData F H Com Data) (m m' : OMap Com)
    (hm : CommitmentsPresent c m) (hm' : CommitmentsPresent c m') (setup k setup' k' : Nat)
    (h : absorbed (placeholderHistory c common m setup k) = absorbed (placeholderHistory c common' m' setup' k')) :
    common.hash = common'.hash ∧ common.fixedCommitment = common'.fixedCommitment ∧
      m.find VARIABLE_BATCH = m'.find VARIABLE_BATCH ∧
      (c.lookups.gates ≠ [] → m.find LOOKUP_BATCH = m'.find LOOKUP_BATCH) ∧
      (c.copies ≠ [] ∨ c.lookups.gates ≠ [] → m.find PERMUTATION_BATCH = m'.find PERMUTATION_BATCH) ∧
      m.find QUOTIENT_BATCH = m'.find QUOTIENT_BATCH := by
  obtain ⟨a1, a2, a3, a4⟩ := hm
  obtain ⟨b1, b2, b3, b4⟩ := hm'
  obtain ⟨v, hv⟩ := Option.ne_none_iff_exists'.1 a1
  obtain ⟨v', hv'⟩ := Option.ne_none_iff_exists'.1 b1
  obtain ⟨q, hq⟩ := Option.ne_none_iff_exists'.1 a2
  obtain ⟨q', hq'⟩ := Option.ne_none_iff_exists'.1 b2
  rw [absorbed_history, absorbed_history, absorbed_batch m _ v hv, absorbed_batch m' _ v' hv', absorbed_batch m _ q hq,
    absorbed_batch m' _ q' hq'] at h
  rw [hv, hv', hq, hq']
  by_cases h1 : c.lookups.gates = []
  · by_cases h2 : c.copies = []
    · simp [h1, h2] at h
      simp [h1, h2, h]
    · obtain ⟨p, hp⟩ := Option.ne_none_iff_exists'.1 (a4 (.inl h2))
      obtain ⟨p', hp'⟩ := Option.ne_none_iff_exists'.1 (b4 (.inl h2))
      rw [absorbed_batch m _ p hp, absorbed_batch m' _ p' hp'] at h
      simp [h1, h2] at h
      simp [h1, h2, hp, hp', h]
  · obtain ⟨p, hp⟩ := Option.ne_none_iff_exists'.1 (a4 (.inr h1))
    obtain ⟨p', hp'⟩ := Option.ne_none_iff_exists'.1 (b4 (.inr h1))
    obtain ⟨l, hl⟩ := Option.ne_none_iff_exists'.1 (a3 h1)
    obtain ⟨l', hl'⟩ := Option.ne_none_iff_exists'.1 (b3 h1)
    rw [absorbed_batch m _ p hp, absorbed_batch m' _ p' hp', absorbed_batch m _ l hl, absorbed_batch m' _ l' hl'] at h
    simp [h1] at h
    simp [h1, hp, hp', hl, hl', h]

/-- **C116** (the history tells proofs apart): the histories of two proofs for the same circuit are the same only if
the verification keys and all commitments are. -/
theorem C116_history_determines (c : Circuit F) (common common' : CommonData F H Com Data) (m m' : OMap Com)
    (hm : CommitmentsPresent c m) (hm' : CommitmentsPresent c m') (setup k setup' k' : Nat)
    (h : placeholderHistory c common m setup k = placeholderHistory c common' m' setup' k') :
    common.hash = common'.hash ∧ common.fixedCommitment = common'.fixedCommitment ∧
      m.find VARIABLE_BATCH = m'.find VARIABLE_BATCH ∧
      (c.lookups.gates ≠ [] → m.find LOOKUP_BATCH = m'.find LOOKUP_BATCH) ∧
      (c.copies ≠ [] ∨ c.lookups.gates ≠ [] → m.find PERMUTATION_BATCH = m'.find PERMUTATION_BATCH) ∧
      m.find QUOTIENT_BATCH = m'.find QUOTIENT_BATCH :=
  history_determines c common common' m m' hm hm' setup k setup' k' (by rw [h])

theorem bytes_after (Hash : Bytes → Bytes) (seed : Bytes) (encH : H → Bytes) (encC : Com → Bytes) (st : SeqTranscript)
    (events : List (PlonkEvent H Com)) :
    ((bytesTranscript (F := F) Hash seed encH encC).after st events).state =
      chain Hash st.state (historyMessages encH encC events) := by
  induction events generalizing st with
  | nil => rfl
  | cons e events ih =>
    rw [PlonkTranscript.after, List.foldl_cons]
    refine (ih _).trans ?_
    rw [historyMessages, historyMessages, List.map_cons, chain]
    cases e <;> simp [bytesTranscript, SeqTranscript.absorb, SeqTranscript.challenge]

/-- **C116** (with the transcript of the library): the evaluation point is the digest of the chain of all these
messages, read as a number and taken into the field. -/
theorem C116_challenge_is_digest (Hash : Bytes → Bytes) (seed : Bytes) (encH : H → Bytes) (encC : Com → Bytes)
    (C : CommScheme F SeqTranscript Com Pr Data Obj) (L : FftLib F) (n : Nat) (d : TableDesc)
    (c : Circuit F) (common : CommonData F H Com Data) (proof : PlaceholderProof F Com Pr) (obj : Obj) (setup : Nat)
    (hset : ∀ st, (C.setup obj st common.schemeData).1 =
      (bytesTranscript (F := F) Hash seed encH encC).after st (List.replicate setup .draw)) {verdict : Bool}
    (hv : placeholderVerify C (bytesTranscript Hash seed encH encC) L n true d c common proof obj = some verdict) :
    CommitmentsPresent c proof.commitments ∧
    ∃ k, proof.challenge = ((packBE (Hash (chain Hash (Hash seed) (historyMessages encH encC
      (placeholderHistory c common proof.commitments setup k)))) : Nat) : F) := by
  obtain ⟨⟨k, hk⟩, hrest⟩ := C116_challenge_of_history C L n d c common proof obj setup hset hv
  refine ⟨hrest, k, ?_⟩
  have e := bytes_after (F := F) Hash seed encH encC (SeqTranscript.seeded Hash seed)
    (placeholderHistory c common proof.commitments setup k)
  have e' : (bytesTranscript (F := F) Hash seed encH encC).start = SeqTranscript.seeded Hash seed := rfl
  rw [hk, e']
  have e2 : ∀ st, ((bytesTranscript (F := F) Hash seed encH encC).challenge st).1 = ((packBE (Hash st.state) : Nat) : F) :=
    fun _ => rfl
  rw [e2, e]
  rfl

theorem absorbed_of_messages (encH : H → Bytes) (encC : Com → Bytes) (hC : ∀ c c', encC c = encC c' → c = c')
    (hC0 : ∀ c, encC c ≠ []) (a b : List (PlonkEvent H Com)) (ha : ∀ h, .key h ∉ a) (hb : ∀ h, .key h ∉ b)
    (h : historyMessages encH encC a = historyMessages encH encC b) : absorbed a = absorbed b := by
  induction a generalizing b with
  | nil =>
    cases b with
    | nil => rfl
    | cons e b => simp [historyMessages] at h
  | cons e a ih =>
    cases b with
    | nil => simp [historyMessages] at h
    | cons e' b =>
      rw [historyMessages, historyMessages, List.map_cons, List.map_cons, List.cons.injEq] at h
      have := ih b (fun x hx => ha x (List.mem_cons_of_mem _ hx)) (fun x hx => hb x (List.mem_cons_of_mem _ hx)) h.2
      have h1 := h.1
      cases e with
      | key x => exact absurd List.mem_cons_self (ha x)
      | com x =>
        cases e' with
        | key y => exact absurd List.mem_cons_self (hb y)
        | com y =>
          rw [hC _ _ h1]
          simpa [absorbed] using this
        | draw => exact absurd h1 (hC0 _)
      | draw =>
        cases e' with
        | key y => exact absurd List.mem_cons_self (hb y)
        | com y => exact absurd h1.symm (hC0 _)
        | draw => simpa [absorbed] using this

theorem no_key_in_batch (m : OMap Com) (k : Nat) (h : H) : (.key h : PlonkEvent H Com) ∉ batchEvent m k := by
  simp [batchEvent]

theorem history_key_first (c : Circuit F) (common : CommonData F H Com Data) (m : OMap Com) (setup k : Nat) :
    ∃ rest, placeholderHistory c common m setup k = .key common.hash :: rest ∧ ∀ h, .key h ∉ rest := by
  refine ⟨_, rfl, fun h hh => ?_⟩
  simp only [List.append_eq, List.mem_append, List.mem_cons, List.mem_replicate, List.nil_append, List.cons_append,
    reduceCtorEq, false_or, or_false, and_false, List.not_mem_nil] at hh
  have hb := fun k => no_key_in_batch (H := H) m k h
  rcases hh with ((((hh | hh) | hh) | hh) | hh)
  · exact hb _ hh
  · split at hh <;> simp at hh
  · split at hh
    · simp at hh
    · simp [hb] at hh
  · split at hh
    · simp at hh
    · exact hb _ hh
  · exact hb _ hh

/-- **C116** (proofs are told apart): let two proofs for the same circuit come to a verdict, with any two verification
keys. If the digests that the evaluation points are made of are the same, then the keys and all commitments are the
same, or the hash function has a collision among the strings that were hashed. -/
theorem C116_binding (Hash : Bytes → Bytes) (len : Nat) (hlen : ∀ x, (Hash x).length = len) (seed : Bytes)
    (hseed : seed.length < len) (encH : H → Bytes) (encC : Com → Bytes) (hH : ∀ h h', encH h = encH h' → h = h')
    (hC : ∀ c c', encC c = encC c' → c = c') (hC0 : ∀ c, encC c ≠ []) (c : Circuit F)
    (common common' : CommonData F H Com Data) (m m' : OMap Com)
    (hm : CommitmentsPresent c m) (hm' : CommitmentsPresent c m') (setup k setup' k' : Nat)
    (heq : Hash (chain Hash (Hash seed) (historyMessages encH encC (placeholderHistory c common m setup k))) =
      Hash (chain Hash (Hash seed) (historyMessages encH encC (placeholderHistory c common' m' setup' k')))) :
    (common.hash = common'.hash ∧ common.fixedCommitment = common'.fixedCommitment ∧
      m.find VARIABLE_BATCH = m'.find VARIABLE_BATCH ∧
      (c.lookups.gates ≠ [] → m.find LOOKUP_BATCH = m'.find LOOKUP_BATCH) ∧
      (c.copies ≠ [] ∨ c.lookups.gates ≠ [] → m.find PERMUTATION_BATCH = m'.find PERMUTATION_BATCH) ∧
      m.find QUOTIENT_BATCH = m'.find QUOTIENT_BATCH) ∨
    ∃ x ∈ seed :: chainInputs Hash (Hash seed)
        (historyMessages encH encC (placeholderHistory c common m setup k) ++ [[]]),
      ∃ y ∈ seed :: chainInputs Hash (Hash seed)
        (historyMessages encH encC (placeholderHistory c common' m' setup' k') ++ [[]]), x ≠ y ∧ Hash x = Hash y := by
  have hops : ∀ l : List Bytes, messages (l.map TranscriptOp.absorb) = l := fun l => by
    simp [messages, Function.comp_def]
  have hch : ∀ l : List Bytes, chain Hash (Hash seed) (l ++ [[]]) = Hash (chain Hash (Hash seed) l) := fun l => by
    rw [chain_append]
    simp [chain]
  have := C57_collision (F := F) Hash len hlen seed seed hseed hseed
    ((historyMessages encH encC (placeholderHistory c common m setup k) ++ [[]]).map .absorb)
    ((historyMessages encH encC (placeholderHistory c common' m' setup' k') ++ [[]]).map .absorb)
    (by
      rw [C57_state, C57_state, hops, hops]
      show chain Hash (Hash seed) _ = chain Hash (Hash seed) _
      rw [hch, hch, heq])
  rw [hops, hops] at this
  refine this.imp (fun h => ?_) id
  have h2 := List.append_cancel_right h.2
  refine history_determines c common common' m m' hm hm' setup k setup' k' ?_
  obtain ⟨r, hr, hr0⟩ := history_key_first c common m setup k
  obtain ⟨r', hr', hr0'⟩ := history_key_first c common' m' setup' k'
  rw [hr, hr', historyMessages, historyMessages, List.map_cons, List.map_cons, List.cons.injEq] at h2
  have h3 := absorbed_of_messages encH encC hC hC0 r r' hr0 hr0' h2.2
  rw [hr, hr', hH _ _ h2.1]
  simpa [absorbed] using h3

/-- **C116** (the commitment schemes): the scheme over FRI draws one challenge when it is set up, from the same
transcript; the schemes over pairings draw none. So the hypothesis of `C116_challenge_of_history` is met. -/
theorem C116_setup_draws {Tree Root Path : Type} [DecidableEq Root] (L : FftLib F) (M : MerkleLib F Tree Root Path)
    (FT : FriTranscript S F Root) (T : PlonkTranscript S F H Root)
    (hT : ∀ st, FT.challenge st = ((T.challenge st).2, (T.challenge st).1)) (prm : FriParams F) (dfs : Bool)
    (fuel nonce : Nat) (obj : LpcScheme F Tree) (st : S) (data : OMap (List F)) :
    ((lpcComm L M FT prm dfs fuel nonce).setup obj st data).1 = T.after st (List.replicate 1 .draw) := by
  simp [lpcComm, LpcScheme.setup, hT, PlonkTranscript.after]

section Examples

/-- the hypotheses of `C116_challenge_of_history` are met by an honest proof for a circuit with gates, copy
constraints and lookups, with KZG as commitment scheme -/
example : ∃ (T : PlonkTranscript Nat (ZMod 257) Unit (List UInt8))
    (C : CommScheme (ZMod 257) Nat (List UInt8) (ZMod 257) Bool (KzgScheme (ZMod 257)))
    (common : CommonData (ZMod 257) Unit (List UInt8) Bool) (proof : PlaceholderProof (ZMod 257) (List UInt8) (ZMod 257))
    (obj : KzgScheme (ZMod 257)),
    placeholderVerify C T (FftLib.ofRoots exRoots257) 2 true exPlonkDesc exPlonkCircuit common proof obj = some true ∧
    (∀ st, (C.setup obj st common.schemeData).1 = T.after st (List.replicate 0 .draw)) ∧
    exPlonkCircuit.copies ≠ [] ∧ exPlonkCircuit.lookups.gates ≠ [] := by
  obtain ⟨T, C, hC, pd, o0, proof, -, -, hv⟩ := C100_example 5 ⟨fun _ st => st, fun st => (3, st)⟩
  refine ⟨T, C, pd.common, proof, o0, ?_, fun st => by rw [hC]; rfl, by decide, by decide⟩
  unfold placeholderVerifyPublic at hv
  simp only at hv
  split at hv
  · cases hv
  · obtain ⟨ok, -, hv⟩ := Option.bind_eq_some_iff.1 hv
    cases ok
    · simp at hv
    · simpa using hv

/-- the hypotheses of `C116_binding` are met, by two histories that are the same up to the challenges drawn -/
example : ∃ (Hash : Bytes → Bytes) (encC : List UInt8 → Bytes) (m : OMap (List UInt8))
    (common : CommonData (ZMod 257) (List UInt8) (List UInt8) Bool),
    (∀ x, (Hash x).length = 4) ∧ (∀ c c', encC c = encC c' → c = c') ∧ (∀ c, encC c ≠ []) ∧
    CommitmentsPresent exPlonkCircuit m ∧ common.fixedCommitment = [7] ∧
    Hash (chain Hash (Hash []) (historyMessages id encC (placeholderHistory exPlonkCircuit common m 0 5))) =
      Hash (chain Hash (Hash []) (historyMessages id encC (placeholderHistory exPlonkCircuit common m 0 5))) := by
  refine ⟨fun x => (x ++ List.replicate 4 0).take 4, fun c => 1 :: c, [(0, [1]), (1, [2]), (2, [3]), (3, [4]), (4, [5])],
    ⟨[7], [], exPlonkDesc, 3, 1, 1, [9], [0, 1], false, 4, [1], [1]⟩, fun x => ?_, fun c c' h => ?_,
    fun c => by simp, ?_, rfl, rfl⟩
  · simp
  · simpa using h
  · unfold CommitmentsPresent
    decide

end Examples

end Crypto3Zk
