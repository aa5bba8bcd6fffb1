import Verif.Lemmas.ProofOfWork

/-!
# C47: proof-of-work nonces are accepted and keep transcripts in sync

The transcript is an arbitrary state machine, so the statements hold for every hash function and
every history.
-/

namespace Crypto3Zk

variable {S : Type}

/-- **C47** (accepted, in sync): whenever the nonce search stops, the verifier accepts the nonce on
the transcript the prover started from, and ends in the transcript the prover ended in. -/
theorem C47_generate_verify (T : IntTranscript S) (bits mask fuel : Nat) (t t' : S)
    (start nonce : Nat) (h : powGenerate T bits mask fuel t start = some (nonce, t')) :
    powVerify T mask t nonce = (true, t') := by
  unfold powGenerate at h
  cases hs : powSearch T bits mask t fuel start with
  | none => simp [hs] at h
  | some n =>
    simp only [hs, Option.bind_eq_bind, Option.bind_some, Option.pure_def, Option.some.injEq,
      Prod.mk.injEq] at h
    obtain ⟨rfl, rfl⟩ := h
    rw [powSearch_eq, orbitSearch_eq_some] at hs
    obtain ⟨_, _, _, hok, _⟩ := hs
    refine Prod.ext hok rfl

/-- **C47** (verifier): the verifier accepts exactly when no bit of the mask is set in the integer
challenge drawn after absorbing the nonce, and its transcript has absorbed the four nonce bytes and
produced one integer challenge whatever the verdict. -/
theorem C47_verify_iff (T : IntTranscript S) (mask : Nat) (t : S) (nonce : Nat) :
    ((powVerify T mask t nonce).1 = true ↔
      ∀ i, ¬ ((T.intChallenge (T.absorb t (nonceBytes nonce))).2.testBit i = true ∧
        mask.testBit i = true)) ∧
      (powVerify T mask t nonce).2 = (T.intChallenge (T.absorb t (nonceBytes nonce))).1 := by
  constructor
  · rw [← land_eq_zero_iff]
    simp [powVerify]
  · rfl

/-- **C47** (default mask): with the mask `0xFFFF` acceptance means that the challenge is divisible
by `2 ^ 16`. -/
theorem C47_default_mask (T : IntTranscript S) (t : S) (nonce : Nat) :
    (powVerify T 0xFFFF t nonce).1 = true ↔
      (T.intChallenge (T.absorb t (nonceBytes nonce))).2 % 2 ^ 16 = 0 := by
  simp only [powVerify, decide_eq_true_eq]
  rw [show (0xFFFF : Nat) = 2 ^ 16 - 1 by norm_num, Nat.and_two_pow_sub_one_eq_mod]

/-- **C47** (the nonce bytes): the four absorbed bytes are the nonce in big-endian order; two nonces
below `2 ^ 32` are absorbed alike only if they are equal. -/
theorem C47_nonce_bytes (n m : Nat) :
    (nonceBytes n).length = 4 ∧ packBE (nonceBytes n) = n % 2 ^ 32 ∧
      (nonceBytes n = nonceBytes m ↔ n % 2 ^ 32 = m % 2 ^ 32) := by
  refine ⟨rfl, packBE_nonceBytes n, ?_⟩
  rw [← packBE_nonceBytes n, ← packBE_nonceBytes m]
  exact ⟨fun h => by rw [h], fun h => packBE_injective _ _ rfl h⟩

/-- **C47** (which nonce): the search returns the first acceptable nonce counting up from the start,
modulo the width of the nonce type. -/
theorem C47_first (T : IntTranscript S) (bits mask fuel : Nat) (t : S) (start nonce : Nat)
    (hs : start < 2 ^ bits) :
    (∃ t', powGenerate T bits mask fuel t start = some (nonce, t')) ↔
      ∃ k < fuel, nonce = (start + k) % 2 ^ bits ∧ (powVerify T mask t nonce).1 = true ∧
        ∀ j < k, (powVerify T mask t ((start + j) % 2 ^ bits)).1 = false := by
  have h1 : (∃ t', powGenerate T bits mask fuel t start = some (nonce, t')) ↔
      powSearch T bits mask t fuel start = some nonce := by
    unfold powGenerate
    cases powSearch T bits mask t fuel start with
    | none => simp
    | some n => simp
  rw [h1, powSearch_eq, orbitSearch_eq_some]
  simp only [add_mod_iterate _ _ _ hs]

/-- **C47** (when the search stops): it stops exactly when some nonce of the type is acceptable, and
then within one round over all nonces; otherwise it never stops. -/
theorem C47_terminates (T : IntTranscript S) (bits mask : Nat) (t : S) (start : Nat)
    (hs : start < 2 ^ bits) :
    ((∃ nonce < 2 ^ bits, (powVerify T mask t nonce).1 = true) →
      ∀ fuel, 2 ^ bits ≤ fuel → (powGenerate T bits mask fuel t start).isSome) ∧
    ((∀ nonce < 2 ^ bits, (powVerify T mask t nonce).1 = false) →
      ∀ fuel, powGenerate T bits mask fuel t start = none) := by
  constructor
  · rintro ⟨n, hn, hok⟩ fuel hf
    have := orbitSearch_isSome_mod (2 ^ bits) start hs (fun n => (powVerify T mask t n).1) n hn hok
      fuel hf
    rw [← powSearch_eq] at this
    obtain ⟨m, hm⟩ := Option.isSome_iff_exists.1 this
    simp [powGenerate, hm]
  · intro h fuel
    cases hg : powGenerate T bits mask fuel t start with
    | none => rfl
    | some r =>
      obtain ⟨k, _, hk, hok, _⟩ := (C47_first T bits mask fuel t start r.1 hs).1 ⟨r.2, hg⟩
      rw [h r.1 (hk ▸ Nat.mod_lt _ (by positivity))] at hok
      cases hok

/-- **C47** (field version, accepted and in sync). -/
theorem C47_field_generate_verify (T : FieldTranscript S) (p modulusBits grindingBits fuel : Nat)
    (t t' : S) (start nonce : Nat)
    (h : fieldPowGenerate T p modulusBits grindingBits fuel t start = some (nonce, t')) :
    fieldPowVerify T modulusBits grindingBits t nonce = some (true, t') := by
  unfold fieldPowGenerate at h
  unfold fieldPowVerify
  cases hm : grindingMask modulusBits grindingBits with
  | none => simp [hm] at h
  | some mask =>
    simp only [hm, Option.bind_eq_bind, Option.bind_some] at h
    cases hs : fieldPowSearch T p mask t fuel start with
    | none => simp [hs] at h
    | some n =>
      simp only [hs, Option.bind_some, Option.pure_def, Option.some.injEq, Prod.mk.injEq] at h
      obtain ⟨rfl, rfl⟩ := h
      rw [fieldPowSearch_eq, orbitSearch_eq_some] at hs
      obtain ⟨_, _, _, hok, _⟩ := hs
      simp only [decide_eq_true_eq] at hok
      simp [hok]

theorem high_mask_land (c b g : Nat) (hg : g ≤ b) (hc : c < 2 ^ b) :
    c &&& (((1 <<< g) - 1) <<< (b - g)) = 0 ↔ c < 2 ^ (b - g) := by
  rw [Nat.one_shiftLeft, land_eq_zero_iff]
  constructor
  · intro h
    apply Nat.lt_pow_two_of_testBit
    intro i hi
    by_contra hb
    rw [Bool.not_eq_false] at hb
    have hib : i < b := by
      by_contra hge
      rw [Nat.testBit_lt_two_pow (lt_of_lt_of_le hc (Nat.pow_le_pow_right (by norm_num) (by omega)))]
        at hb
      cases hb
    refine h i ⟨hb, ?_⟩
    rw [Nat.testBit_shiftLeft, Nat.testBit_two_pow_sub_one]
    simp
    omega
  · rintro h i ⟨h1, h2⟩
    rw [Nat.testBit_shiftLeft] at h2
    simp only [ge_iff_le, Bool.and_eq_true, decide_eq_true_eq] at h2
    rw [Nat.testBit_lt_two_pow (lt_of_lt_of_le h (Nat.pow_le_pow_right (by norm_num) h2.1))] at h1
    cases h1

/-- **C47** (field version, verifier): for a grinding level up to the size of the modulus, the
verifier accepts exactly when the top `grindingBits` bits of the challenge are zero. -/
theorem C47_field_verify_iff (T : FieldTranscript S) (modulusBits grindingBits : Nat) (t : S)
    (nonce : Nat) (hg : grindingBits ≤ modulusBits)
    (hc : (T.challenge (T.absorb t nonce)).2 < 2 ^ modulusBits) :
    fieldPowVerify T modulusBits grindingBits t nonce =
      some (decide ((T.challenge (T.absorb t nonce)).2 < 2 ^ (modulusBits - grindingBits)),
        (T.challenge (T.absorb t nonce)).1) := by
  unfold fieldPowVerify grindingMask
  by_cases h0 : grindingBits > 0
  · simp only [if_pos h0, if_pos hg, Option.bind_eq_bind, Option.bind_some, Option.pure_def,
      Option.some.injEq, Prod.mk.injEq, and_true]
    rw [decide_eq_decide]
    exact high_mask_land _ _ _ hg hc
  · have : grindingBits = 0 := by omega
    subst this
    simp [hc]

/-- **C47** (field version, when the search stops). -/
theorem C47_field_terminates (T : FieldTranscript S) (p modulusBits grindingBits : Nat) (t : S)
    (start : Nat) (hs : start < p) (hg : grindingBits ≤ modulusBits)
    (h : ∃ nonce < p, ∃ t', fieldPowVerify T modulusBits grindingBits t nonce = some (true, t'))
    (fuel : Nat) (hf : p ≤ fuel) :
    (fieldPowGenerate T p modulusBits grindingBits fuel t start).isSome := by
  obtain ⟨n, hn, t', hv⟩ := h
  unfold fieldPowVerify at hv
  unfold fieldPowGenerate
  have hm : ∃ mask, grindingMask modulusBits grindingBits = some mask := by
    unfold grindingMask
    split_ifs <;> exact ⟨_, rfl⟩
  obtain ⟨mask, hm⟩ := hm
  simp only [hm, Option.bind_eq_bind, Option.bind_some, Option.pure_def, Option.some.injEq,
    Prod.mk.injEq] at hv ⊢
  have := orbitSearch_isSome_mod p start hs
    (fun n => decide ((T.challenge (T.absorb t n)).2 &&& mask = 0)) n hn hv.1 fuel hf
  rw [← fieldPowSearch_eq] at this
  obtain ⟨m, hm⟩ := Option.isSome_iff_exists.1 this
  simp [hm]

/-- A toy transcript: the state is the number formed by everything absorbed. -/
def exIntTranscript : IntTranscript Nat := ⟨fun s b => (s * 5 + packBE b) % 251, fun s => (s, s)⟩

example : powGenerate exIntTranscript 32 7 20 3 4 = some (9, 24) ∧
    powVerify exIntTranscript 7 3 9 = (true, 24) ∧
    (powVerify exIntTranscript 7 3 8).1 = false := by
  decide +kernel

/-- A toy transcript over the field of 13 elements. -/
def exFieldTranscript : FieldTranscript Nat := ⟨fun s n => (s * 5 + n) % 13, fun s => (s, s)⟩

example : fieldPowGenerate exFieldTranscript 13 4 2 13 1 3 = some (8, 0) ∧
    fieldPowVerify exFieldTranscript 4 2 1 8 = some (true, 0) := by
  decide +kernel

end Crypto3Zk
