import Verif.Lemmas.Transcript
import Verif.Spec.Transcript
import Mathlib.Algebra.Field.Rat

/-!
# C57: Fiat-Shamir challenges depend on the whole history and nothing else

The statements hold for every hash function `H`. `chain`, `chainInputs` and `messages` are in
`Verif/Spec/Transcript.lean`.
-/

set_option linter.unusedSectionVars false

namespace Crypto3Zk

variable {F : Type} [Field F]

/-- The digest after a history is the chained hash of its messages. -/
theorem C57_state (H : Bytes → Bytes) (t : SeqTranscript) (ops : List TranscriptOp) :
    (t.run (F := F) H ops).1.state = chain H t.state (messages ops) := by
  induction ops generalizing t with
  | nil => rfl
  | cons op ops ih =>
    simp only [SeqTranscript.run, messages, List.map_cons, chain]
    rw [ih, step_state]
    cases op <;> rfl

/-- **C57** (the challenge): a challenge requested after a history is the next digest of the chain,
read as a big-endian number and taken into the field; an integer challenge of `bits` bits is the
same number modulo `2 ^ bits`. Nothing but the history and the hash function enters. -/
theorem C57_challenge_value (H : Bytes → Bytes) (seed : Bytes) (ops : List TranscriptOp)
    (bits : Nat) :
    let s := chain H (H seed) (messages ops)
    (((SeqTranscript.seeded H seed).run (F := F) H (ops ++ [.challenge])).2 =
        ((SeqTranscript.seeded H seed).run (F := F) H ops).2 ++ [.field (packBE (H s) : F)]) ∧
      ((SeqTranscript.seeded H seed).run (F := F) H (ops ++ [.intChallenge bits])).2 =
        ((SeqTranscript.seeded H seed).run (F := F) H ops).2 ++ [.int (packBE (H s) % 2 ^ bits)] := by
  have h := C57_state (F := F) H (SeqTranscript.seeded H seed) ops
  simp only
  constructor
  · rw [run_append]
    simp only [SeqTranscript.run, SeqTranscript.step, SeqTranscript.challenge, h]
    rfl
  · rw [run_append]
    simp only [SeqTranscript.run, SeqTranscript.step, SeqTranscript.intChallenge, h,
      Nat.and_two_pow_sub_one_eq_mod]
    rfl

/-- **C57** (same history, same challenges; later calls do not matter): two transcripts that are in
the same state and receive the same calls return the same challenges, whatever is called
afterwards. -/
theorem C57_causal (H : Bytes → Bytes) (t : SeqTranscript) (ops later later' : List TranscriptOp) :
    ((t.run (F := F) H (ops ++ later)).2.take (t.run (F := F) H ops).2.length) =
      ((t.run (F := F) H (ops ++ later')).2.take (t.run (F := F) H ops).2.length) := by
  rw [run_append, run_append]
  simp

theorem chain_append (H : Bytes → Bytes) (s : Bytes) (a b : List Bytes) :
    chain H s (a ++ b) = chain H (chain H s a) b := by
  induction a generalizing s with
  | nil => rfl
  | cons m a ih => simp [chain, ih]

theorem chainInputs_append (H : Bytes → Bytes) (s : Bytes) (a b : List Bytes) :
    chainInputs H s (a ++ b) = chainInputs H s a ++ chainInputs H (chain H s a) b := by
  induction a generalizing s with
  | nil => rfl
  | cons m a ih => simp [chain, chainInputs, ih]

theorem chain_digest_length (H : Bytes → Bytes) (L : Nat) (hL : ∀ x, (H x).length = L) (s : Bytes)
    (hs : s.length = L) (ms : List Bytes) : (chain H s ms).length = L := by
  induction ms generalizing s with
  | nil => exact hs
  | cons m ms ih => exact ih _ (hL _)

/-- **C57** (different histories stay apart): if two transcripts, seeded with strings shorter than a
digest, end in the same state, then either they were seeded alike and saw the same messages in the
same order, or the hash function has a collision among the strings the two transcripts hashed. -/
theorem C57_collision (H : Bytes → Bytes) (L : Nat) (hL : ∀ x, (H x).length = L)
    (seed seed' : Bytes) (hseed : seed.length < L) (hseed' : seed'.length < L)
    (ops ops' : List TranscriptOp)
    (heq : ((SeqTranscript.seeded H seed).run (F := F) H ops).1.state =
      ((SeqTranscript.seeded H seed').run (F := F) H ops').1.state) :
    (seed = seed' ∧ messages ops = messages ops') ∨
      ∃ x ∈ seed :: chainInputs H (H seed) (messages ops),
        ∃ y ∈ seed' :: chainInputs H (H seed') (messages ops'), x ≠ y ∧ H x = H y := by
  rw [C57_state, C57_state] at heq
  simp only [SeqTranscript.seeded] at heq
  generalize messages ops = ms at *
  generalize messages ops' = ms' at *
  induction ms using List.reverseRecOn generalizing ms' with
  | nil =>
    rcases List.eq_nil_or_concat ms' with rfl | ⟨l, m, rfl⟩
    · by_cases h : seed = seed'
      · exact Or.inl ⟨h, rfl⟩
      · exact Or.inr ⟨seed, by simp, seed', by simp, h, heq⟩
    · rw [List.concat_eq_append] at *
      rw [chain_append] at heq
      refine Or.inr ⟨seed, by simp, chain H (H seed') l ++ m, ?_, ?_, heq⟩
      · rw [chainInputs_append]; simp [chainInputs]
      · intro h
        have h1 := congrArg List.length h
        rw [List.length_append, chain_digest_length H L hL _ (hL _)] at h1
        omega
  | append_singleton l m ih =>
    rcases List.eq_nil_or_concat ms' with rfl | ⟨l', m', rfl⟩
    · rw [chain_append] at heq
      refine Or.inr ⟨chain H (H seed) l ++ m, ?_, seed', by simp, ?_, heq⟩
      · rw [chainInputs_append]; simp [chainInputs]
      · intro h
        have h1 := congrArg List.length h
        rw [List.length_append, chain_digest_length H L hL _ (hL _)] at h1
        omega
    · rw [List.concat_eq_append] at *
      by_cases hne : chain H (H seed) l ++ m = chain H (H seed') l' ++ m'
      · have hlen : (chain H (H seed) l).length = (chain H (H seed') l').length := by
          rw [chain_digest_length H L hL _ (hL _), chain_digest_length H L hL _ (hL _)]
        obtain ⟨h1, h2⟩ := List.append_inj hne hlen
        rcases ih l' h1 with ⟨h3, h4⟩ | ⟨x, hx, y, hy, hxy⟩
        · exact Or.inl ⟨h3, by rw [h4, h2]⟩
        · refine Or.inr ⟨x, ?_, y, ?_, hxy⟩
          · rw [chainInputs_append]; rw [← List.cons_append]; exact List.mem_append_left _ hx
          · rw [chainInputs_append]; rw [← List.cons_append]; exact List.mem_append_left _ hy
      · rw [chain_append, chain_append] at heq
        refine Or.inr ⟨_, ?_, _, ?_, hne, heq⟩
        · rw [chainInputs_append]; simp [chainInputs]
        · rw [chainInputs_append]; simp [chainInputs]

/-- **C57** (default constructor): a fresh transcript is one seeded with a zero byte, so the
previous theorems apply to it for every digest of at least two bytes. -/
theorem C57_fresh (H : Bytes → Bytes) : SeqTranscript.fresh H = SeqTranscript.seeded H [0] := rfl

/-- **C57** (limit of the previous claim): absorbing an empty message changes the state exactly as a
challenge request does, so these two histories cannot be told apart. -/
theorem C57_empty_message_is_challenge (H : Bytes → Bytes) (t : SeqTranscript) :
    t.absorb H [] = (t.challenge (F := F) H).1 := by
  simp [SeqTranscript.absorb, SeqTranscript.challenge]

/-- **C57** (integer width): the integer challenge of a type of `n` bytes is the number formed by the
last `n` bytes of the digest: every value of the type is the challenge of exactly one choice of
these bytes. -/
theorem C57_int_full_width_partial (H : Bytes → Bytes) (t : SeqTranscript) (n : Nat)
    (high low : Bytes) (hlow : low.length = n) (hd : H t.state = high ++ low) :
    (t.intChallenge H (8 * n)).2 = packBE low ∧
      (∀ v < 2 ^ (8 * n), ∃ low' : Bytes, (low'.length = n ∧ packBE low' = v) ∧
        ∀ l : Bytes, l.length = n ∧ packBE l = v → l = low') := by
  have e : (2 : Nat) ^ (8 * n) = 256 ^ n := by rw [pow_mul]; norm_num
  constructor
  · simp only [SeqTranscript.intChallenge, hd]
    rw [Nat.and_two_pow_sub_one_eq_mod, packBE_append, e, hlow, Nat.mul_add_mod_self_right]
    exact Nat.mod_eq_of_lt (hlow ▸ packBE_lt low)
  · intro v hv
    obtain ⟨a, ha, hp⟩ := packBE_surjective n v (e ▸ hv)
    exact ⟨a, ⟨ha, hp⟩, fun l hl => packBE_injective l a (hl.1.trans ha.symm) (hl.2.trans hp.symm)⟩

/-- **C57** (several challenges): asking for `n` challenges at once is asking `n` times. -/
theorem C57_challenges (H : Bytes → Bytes) (t : SeqTranscript) (n : Nat) :
    ((t.challenges (F := F) H n).1, (t.challenges (F := F) H n).2.map TranscriptOut.field) =
      t.run (F := F) H (List.replicate n .challenge) := by
  induction n generalizing t with
  | zero => rfl
  | succ n ih =>
    simp only [SeqTranscript.challenges, List.replicate_succ, SeqTranscript.run,
      SeqTranscript.step]
    rw [← ih]
    simp

/-- **C57 is false for the accumulative transcript**: its challenge is one after every history. -/
theorem C57_accumulative_constant (H : Bytes → Bytes) (messages : List Bytes) :
    ((messages.foldl AccTranscript.absorb ⟨[]⟩).challenge (F := F) H).2 = 1 := rfl

theorem poseidonIntLoop_even (bits : Nat) (k : Nat) (hk : 8 * k ≤ bits) :
    ∀ (m fuel c result : Nat), m ≤ k → c ≤ fuel → 2 * m < 2 ^ 64 → result < 256 ^ (k - m) →
      poseidonIntLoop bits fuel c (2 * m) result (256 ^ (k - m) % 2 ^ bits) =
        result + 256 ^ (k - m) * (c % 256 ^ m) := by
  have e : ∀ n, (2 : Nat) ^ (8 * n) = 256 ^ n := fun n => by rw [pow_mul]; norm_num
  intro m
  induction m with
  | zero =>
    intro fuel c result _ _ _ _
    cases fuel <;> simp [poseidonIntLoop, Nat.mod_one]
  | succ m ih =>
    intro fuel c result hm hc h64 hres
    cases fuel with
    | zero =>
      have : c = 0 := by omega
      subst this
      simp [poseidonIntLoop]
    | succ fuel =>
      rw [poseidonIntLoop]
      by_cases hc0 : c = 0
      · subst hc0; simp
      · rw [if_pos ⟨by omega, by omega⟩]
        simp only
        have hbits : 256 ^ k ≤ 2 ^ bits := by
          rw [← e]; exact Nat.pow_le_pow_right (by norm_num) hk
        have hlt : 256 ^ (k - (m + 1)) < 2 ^ bits :=
          lt_of_lt_of_le (Nat.pow_lt_pow_right (by norm_num) (by omega)) hbits
        rw [Nat.mod_eq_of_lt hlt]
        have hsucc : 256 ^ (k - m) = 256 ^ (k - (m + 1)) * 256 := by
          rw [← pow_succ]; congr 1; omega
        have hb : c % 256 < 256 := Nat.mod_lt _ (by norm_num)
        have hres' : result + 256 ^ (k - (m + 1)) * (c % 256) < 256 ^ (k - m) := by
          rw [hsucc]
          have := Nat.mul_le_mul_left (256 ^ (k - (m + 1))) (Nat.lt_succ_iff.1 hb)
          have h2 : 256 ^ (k - (m + 1)) * 256 =
            256 ^ (k - (m + 1)) * 255 + 256 ^ (k - (m + 1)) := by ring
          omega
        have hle : (256 : Nat) ^ (k - m) ≤ 2 ^ bits :=
          le_trans (Nat.pow_le_pow_right (by norm_num) (by omega)) hbits
        rw [Nat.mod_eq_of_lt (lt_of_lt_of_le hres' hle), ← hsucc,
          show (2 * (m + 1) + 2 ^ 64 - 2) % 2 ^ 64 = 2 * m by omega,
          ih fuel (c / 256) _ (by omega) (by omega) (by omega) hres']
        have hmod : c % 256 ^ (m + 1) = c % 256 + 256 * (c / 256 % 256 ^ m) := by
          rw [pow_succ, Nat.mul_comm, Nat.mod_mul]
        rw [hmod, hsucc]
        ring

/-- **C57 is false for the integer challenge of the Poseidon transcript**: for a type of `2 k` bytes
(`k ≤ 4` covers all unsigned integer types but `uint8_t`) the result is the squeezed element modulo
`256 ^ k`, so only the lower half of the type is ever used. -/
theorem C57_poseidon_half_width (k c : Nat) (hk : k ≤ 4) :
    poseidonIntChallenge (2 * k) c = c % 2 ^ (8 * k) ∧
      poseidonIntChallenge (2 * k) c < 2 ^ (8 * k) := by
  have e : (2 : Nat) ^ (8 * k) = 256 ^ k := by rw [pow_mul]; norm_num
  have h := poseidonIntLoop_even (8 * (2 * k)) k (by omega) k c c 0 le_rfl le_rfl (by omega) (by simp)
  have h1 : 1 % 2 ^ (8 * (2 * k)) = 256 ^ (k - k) % 2 ^ (8 * (2 * k)) := by simp
  have key : poseidonIntChallenge (2 * k) c = c % 2 ^ (8 * k) := by
    unfold poseidonIntChallenge
    rcases Nat.eq_zero_or_pos k with rfl | hk0
    · simp only [Nat.mul_zero, pow_zero, Nat.mod_one]
      cases c <;> simp [poseidonIntLoop]
    · have : 1 % 2 ^ (8 * (2 * k)) = 1 :=
        Nat.mod_eq_of_lt (Nat.one_lt_two_pow (by omega))
      rw [← h1, this] at h
      rw [h, e]
      simp
  exact ⟨key, key ▸ Nat.mod_lt _ (by positivity)⟩

/-- A toy two-byte hash: the length and the sum of the bytes. -/
def exHash (b : Bytes) : Bytes := [UInt8.ofNat b.length, b.foldl (· + ·) 0]

example : (∀ x, (exHash x).length = 2) ∧
    ((SeqTranscript.fresh exHash).run (F := ℚ) exHash
      [.absorb [7], .challenge, .intChallenge 8]).2 =
        [.field 523, .int 13] := by
  exact ⟨fun _ => rfl, by decide +kernel⟩

/-- The Poseidon integer challenge of a four-byte type never exceeds two bytes. -/
example : poseidonIntChallenge 4 0x12345678 = 0x5678 ∧ poseidonIntChallenge 8 (2 ^ 40) = 0 := by
  refine ⟨?_, ?_⟩
  · exact (C57_poseidon_half_width 2 0x12345678 (by norm_num)).1
  · exact (C57_poseidon_half_width 4 (2 ^ 40) (by norm_num)).1.trans (by norm_num)

end Crypto3Zk
